import Verif.Model.Gen
import Verif.Proofs.Flat
import Verif.Proofs.Ast
/-!
# Facts about the code generator on tries
-/

namespace Wayfinder

/-! ## Depth -/

namespace Trie
variable {K V : Type}

theorem depth_node (d : Option V) (cs : List (K × Trie K V)) :
    (node d cs).depth = 1 + depthList cs := by simp [depth]

theorem depth_le_depthList {k : K} {t : Trie K V} :
    ∀ {cs : List (K × Trie K V)}, (k, t) ∈ cs → t.depth ≤ depthList cs
  | p :: rest, h => by
    simp only [depthList]
    rcases List.mem_cons.1 h with h | h
    · subst h; simp only [depthPair]; omega
    · have := depth_le_depthList h; omega

theorem depth_lt_of_mem {k : K} {t c : Trie K V} (h : (k, c) ∈ t.children) : c.depth < t.depth := by
  obtain ⟨d, cs⟩ := t
  have : c.depth ≤ depthList cs := depth_le_depthList (k := k) (t := c) h
  rw [depth_node]; omega

theorem depth_pos (t : Trie K V) : 0 < t.depth := by
  obtain ⟨d, cs⟩ := t; rw [depth_node]; omega

theorem depth_lt_of_child [DecidableEq K] {t c : Trie K V} {k : K} (h : t.child k = some c) :
    c.depth < t.depth := depth_lt_of_mem (assoc_mem h)

theorem depth_le_of_sub [DecidableEq K] {ks : List K} : ∀ {t c : Trie K V}, t.sub ks = some c →
    c.depth + ks.length ≤ t.depth := by
  induction ks with
  | nil => intro t c h; simp at h; subst h; simp
  | cons k ks ih =>
    intro t c h
    rw [sub_cons] at h
    cases hk : t.child k with
    | none => simp [hk] at h
    | some c' =>
      simp only [hk, Option.bind_some] at h
      have h1 := ih h
      have h2 := depth_lt_of_child hk
      simp; omega

end Trie

/-! ## One step of the generator -/

/-- What `codegen_trie` emits for the children of a node. -/
def genChildren (fuel : Nat) (t : RouteTrie) : Except GenFail (List Stmt) :=
  match t.children with
  | [] => .ok [.retNotFound]
  | [(segment, child)] => genSingle (codegenTrie fuel) fuel segment child
  | _ => genMulti (codegenTrie fuel) fuel t

theorem codegenTrie_succ (fuel : Nat) (t : RouteTrie) :
    codegenTrie (fuel + 1) t =
      match genChildren fuel t with
      | .error e => .error e
      | .ok body => .ok (ownMethods t.data ++ body) := by
  simp only [codegenTrie, genChildren]
  cases t.children with
  | nil => rfl
  | cons p rest =>
    obtain ⟨seg, c⟩ := p
    cases rest with
    | nil => rfl
    | cons p2 rest => rfl

theorem codegenTrie_succ_ok {fuel : Nat} {t : RouteTrie} {body : List Stmt}
    (h : codegenTrie (fuel + 1) t = .ok body) :
    ∃ cb, genChildren fuel t = .ok cb ∧ body = ownMethods t.data ++ cb := by
  rw [codegenTrie_succ] at h
  cases hg : genChildren fuel t with
  | error e => simp [hg] at h
  | ok cb => simp [hg] at h; exact ⟨cb, rfl, h.symm⟩

/-! ## The static runs -/

theorem staticChain_spec : ∀ (fuel : Nat) (acc : Str) (t : RouteTrie) (s : Str) (t' : RouteTrie),
    staticChain fuel acc t = (s, t') → ∃ u, s = acc ++ u ∧ t.sub (u.map .static) = some t'
  | 0, acc, t, s, t', h => by
    simp only [staticChain, Prod.mk.injEq] at h
    exact ⟨[], by simp [h.1], by simp [h.2]⟩
  | fuel + 1, acc, t, s, t', h => by
    simp only [staticChain] at h
    split at h
    · rename_i ch c hch
      obtain ⟨u, hu, hsub⟩ := staticChain_spec fuel _ _ _ _ h
      refine ⟨ch :: u, by simp [hu], ?_⟩
      simp only [List.map_cons, Trie.sub_cons, Trie.child, hch, assoc, if_true, Option.bind_some]
      exact hsub
    · simp only [Prod.mk.injEq] at h
      exact ⟨[], by simp [h.1], by simp [h.2]⟩

theorem mem_staticOptions {cs : List (Charlike × RouteTrie)} {ch : Char} {c : RouteTrie} :
    (ch, c) ∈ staticOptions cs ↔ (Charlike.static ch, c) ∈ cs := by
  simp only [staticOptions, List.mem_filterMap]
  constructor
  · rintro ⟨⟨k, t⟩, hm, h⟩
    cases k with
    | static x => simp at h; rw [← h.1, ← h.2]; exact hm
    | dynamic x => simp at h
    | separator => simp at h
  · intro h
    exact ⟨_, h, rfl⟩

theorem unambiguousPrefix_sub : ∀ (fuel : Nat) (s : Str) (l : Nat) (t : RouteTrie) (s' : Str) (l' : Nat)
    (t' : RouteTrie), t.WF Charlike.cmp → unambiguousPrefix fuel s l t = (s', l', t') →
    ∃ u, s' = s ++ u ∧ t.sub (u.map .static) = some t'
  | 0, s, l, t, s', l', t', _, h => by
    simp only [unambiguousPrefix, Prod.mk.injEq] at h
    exact ⟨[], by simp [h.1], by simp [h.2.2]⟩
  | fuel + 1, s, l, t, s', l', t', hwf, h => by
    simp only [unambiguousPrefix] at h
    split at h
    · simp only [Prod.mk.injEq] at h
      exact ⟨[], by simp [h.1], by simp [h.2.2]⟩
    · split at h
      · rename_i ch c hopt
        have hmem : (Charlike.static ch, c) ∈ t.children :=
          mem_staticOptions.1 (by rw [hopt]; simp)
        have hchild : t.child (.static ch) = some c :=
          assoc_of_mem Charlike.orderCmp hwf.sorted_children hmem
        obtain ⟨u, hu, hsub⟩ := unambiguousPrefix_sub fuel _ _ _ _ _ _ (hwf.of_child hchild) h
        refine ⟨ch :: u, by simp [hu], ?_⟩
        simp only [List.map_cons, Trie.sub_cons, hchild, Option.bind_some]
        exact hsub
      · simp only [Prod.mk.injEq] at h
        exact ⟨[], by simp [h.1], by simp [h.2.2]⟩

theorem findDynamic_mem : ∀ {cs : List (Charlike × RouteTrie)} {x : Str} {c : RouteTrie},
    findDynamic cs = some (x, c) → (Charlike.dynamic x, c) ∈ cs
  | (k, t) :: cs, x, c, h => by
    cases k with
    | dynamic y => simp only [findDynamic, Option.some.injEq, Prod.mk.injEq] at h; simp [h.1, h.2]
    | static y => exact List.mem_cons_of_mem _ (findDynamic_mem (by simpa [findDynamic] using h))
    | separator => exact List.mem_cons_of_mem _ (findDynamic_mem (by simpa [findDynamic] using h))

theorem findDynamic_none : ∀ {cs : List (Charlike × RouteTrie)},
    findDynamic cs = none ↔ ∀ x c, (Charlike.dynamic x, c) ∉ cs
  | [] => by simp [findDynamic]
  | (k, t) :: cs => by
    cases k with
    | dynamic y =>
      simp only [findDynamic]
      constructor
      · intro h; cases h
      · intro h; exact absurd (List.mem_cons_self ..) (h y t)
    | static y => simp [findDynamic, findDynamic_none (cs := cs)]
    | separator => simp [findDynamic, findDynamic_none (cs := cs)]

/-! ## Where struct literals come from -/

/-- Literal `a` belongs to an element stored in `t`. -/
def FromElement (t : RouteTrie) (a : MethodArm) : Prop :=
  ∃ ks v, t.get ks = some v ∧ a ∈ methodArms v

theorem FromElement.of_child {t c : RouteTrie} {k : Charlike} {a : MethodArm}
    (hc : t.child k = some c) (h : FromElement c a) : FromElement t a := by
  obtain ⟨ks, v, hv, ha⟩ := h
  exact ⟨k :: ks, v, by rw [Trie.get_cons, hc]; exact hv, ha⟩

theorem FromElement.of_sub {t c : RouteTrie} {ks : List Charlike} {a : MethodArm}
    (hc : t.sub ks = some c) (h : FromElement c a) : FromElement t a := by
  obtain ⟨ks', v, hv, ha⟩ := h
  exact ⟨ks ++ ks', v, by rw [Trie.get_append, hc]; exact hv, ha⟩

theorem writeMethods_literals (v : FlattenedRoute) : blockLiterals (writeMethods v) = methodArms v := by
  simp [writeMethods, blockLiterals, Stmt.literals]

theorem ownMethods_literals {t : RouteTrie} {a : MethodArm} (h : a ∈ blockLiterals (ownMethods t.data)) :
    FromElement t a := by
  cases hd : t.data with
  | none => simp [ownMethods, hd, blockLiterals] at h
  | some v =>
    simp only [ownMethods, hd] at h
    split at h
    · rw [writeMethods_literals] at h
      exact ⟨[], v, by simp [hd], h⟩
    · simp [blockLiterals] at h

theorem separatorHead_literals {t : RouteTrie} {a : MethodArm}
    (h : a ∈ blockLiterals (separatorHead t.data)) : FromElement t a := by
  cases hd : t.data with
  | none => simp [separatorHead, hd, blockLiterals, Stmt.literals] at h
  | some v =>
    simp only [separatorHead, hd] at h
    split at h
    · rw [writeMethods_literals] at h
      exact ⟨[], v, by simp [hd], h⟩
    · simp [blockLiterals, Stmt.literals] at h

theorem writeDynamic_ok {gen : RouteTrie → Except GenFail (List Stmt)} {x : Str} {t : RouteTrie}
    {body : List Stmt} (h : writeDynamic gen x t = .ok body) :
    ∃ c, t.children = [(.separator, c)] ∧ ∃ b, gen t = .ok b ∧ body = dynamicHead x b ++ b := by
  simp only [writeDynamic] at h
  split at h
  · rename_i hf
    have : ∃ c, t.children = [(.separator, c)] := by
      simp only [followedBySeparator] at hf
      split at hf
      · rename_i c hc; exact ⟨c, hc⟩
      · cases hf
    obtain ⟨c, hc⟩ := this
    refine ⟨c, hc, ?_⟩
    cases hg : gen t with
    | error e => simp [hg] at h
    | ok b => simp [hg] at h; exact ⟨b, rfl, h.symm⟩
  · cases h

theorem dynamicHead_literals (x : Str) (b : List Stmt) : blockLiterals (dynamicHead x b) = [] := by
  simp [dynamicHead, blockLiterals, Stmt.literals]

theorem writeDynamic_literals {gen : RouteTrie → Except GenFail (List Stmt)} {x : Str} {t : RouteTrie}
    {body : List Stmt} (h : writeDynamic gen x t = .ok body)
    (hgen : ∀ b, gen t = .ok b → ∀ a ∈ blockLiterals b, FromElement t a) :
    ∀ a ∈ blockLiterals body, FromElement t a := by
  obtain ⟨c, _, b, hb, rfl⟩ := writeDynamic_ok h
  intro a ha
  rw [blockLiterals_append, dynamicHead_literals] at ha
  exact hgen b hb a ha

theorem ambiguousArms_literals {gen : RouteTrie → Except GenFail (List Stmt)} :
    ∀ (cs : List (Charlike × RouteTrie)) (arms : List Arm), ambiguousArms gen cs = .ok arms →
      (∀ k c, (k, c) ∈ cs → ∀ b, gen c = .ok b → ∀ a ∈ blockLiterals b, FromElement c a) →
      ∀ a ∈ armsLiterals arms, ∃ k c, (k, c) ∈ cs ∧ FromElement c a
  | [], arms, h, _ => by
    simp only [ambiguousArms, Except.ok.injEq] at h; subst h; simp [armsLiterals]
  | (.static ch, t) :: cs, arms, h, hgen => by
    simp only [ambiguousArms] at h
    cases hg : gen t with
    | error e => simp [hg] at h
    | ok b =>
      simp only [hg] at h
      cases hr : ambiguousArms gen cs with
      | error e => simp [hr] at h
      | ok rest =>
        simp only [hr, Except.ok.injEq] at h
        subst h
        intro a ha
        simp only [armsLiterals, Arm.literals, blockLiterals, Stmt.literals, List.nil_append,
          List.mem_append] at ha
        rcases ha with ha | ha
        · exact ⟨_, t, List.mem_cons_self .., hgen _ t (List.mem_cons_self ..) b hg a ha⟩
        · obtain ⟨k, c, hm, hf⟩ := ambiguousArms_literals cs rest hr
            (fun k c hm => hgen k c (List.mem_cons_of_mem _ hm)) a ha
          exact ⟨k, c, List.mem_cons_of_mem _ hm, hf⟩
  | (.dynamic p, t) :: cs, arms, h, hgen => by
    simp only [ambiguousArms] at h
    cases hg : writeDynamic gen p t with
    | error e => simp [hg] at h
    | ok b =>
      simp only [hg, Except.ok.injEq] at h
      subst h
      intro a ha
      simp only [armsLiterals, Arm.literals, List.append_nil] at ha
      exact ⟨_, t, List.mem_cons_self .., writeDynamic_literals hg
        (fun b hb => hgen _ t (List.mem_cons_self ..) b hb) a ha⟩
  | (.separator, t) :: cs, arms, h, hgen => by
    simp only [ambiguousArms] at h
    cases hr : ambiguousArms gen cs with
    | error e => simp [hr] at h
    | ok rest =>
      simp only [hr, Except.ok.injEq] at h
      subst h
      intro a ha
      simp only [armsLiterals, Arm.literals, List.nil_append] at ha
      obtain ⟨k, c, hm, hf⟩ := ambiguousArms_literals cs rest hr
        (fun k c hm => hgen k c (List.mem_cons_of_mem _ hm)) a ha
      exact ⟨k, c, List.mem_cons_of_mem _ hm, hf⟩

/-- Every struct literal in the code generated for a trie belongs to an element stored in it. -/
theorem codegenTrie_literals : ∀ (fuel : Nat) (t : RouteTrie) (body : List Stmt),
    t.WF Charlike.cmp → codegenTrie fuel t = .ok body →
    ∀ a ∈ blockLiterals body, FromElement t a
  | 0, t, body, _, h => by simp [codegenTrie] at h
  | fuel + 1, t, body, hwf, h => by
    obtain ⟨cb, hcb, rfl⟩ := codegenTrie_succ_ok h
    have ih := codegenTrie_literals fuel
    have hmem : ∀ {k c}, (k, c) ∈ t.children → t.child k = some c := fun hm =>
      assoc_of_mem Charlike.orderCmp hwf.sorted_children hm
    intro a ha
    rw [blockLiterals_append, List.mem_append] at ha
    rcases ha with ha | ha
    · exact ownMethods_literals ha
    · simp only [genChildren] at hcb
      split at hcb
      · simp only [Except.ok.injEq] at hcb; subst hcb
        simp [blockLiterals, Stmt.literals] at ha
      · rename_i seg c hcs
        have hchild : t.child seg = some c := hmem (by rw [hcs]; simp)
        have hwc := hwf.of_child hchild
        cases seg with
        | separator =>
          simp only [genSingle] at hcb
          cases hg : codegenTrie fuel c with
          | error e => simp [hg] at hcb
          | ok b =>
            simp only [hg, Except.ok.injEq] at hcb
            subst hcb
            simp only [blockLiterals_append, List.mem_append, blockLiterals, Stmt.literals,
              armsLiterals, Arm.literals, List.append_nil] at ha
            rcases ha with ha | ha
            · exact (separatorHead_literals ha).of_child hchild
            · exact (ih c b hwc hg a ha).of_child hchild
        | static ch =>
          simp only [genSingle] at hcb
          cases hsc : staticChain fuel [ch] c with
          | mk s c' =>
            simp only [hsc] at hcb
            obtain ⟨u, _, hsub⟩ := staticChain_spec _ _ _ _ _ hsc
            cases hg : codegenTrie fuel c' with
            | error e => simp [hg] at hcb
            | ok b =>
              simp only [hg, Except.ok.injEq] at hcb
              subst hcb
              simp only [List.cons_append, List.nil_append, blockLiterals, Stmt.literals,
                armsLiterals, Arm.literals, List.append_nil] at ha
              exact ((ih c' b (hwc.of_sub hsub) hg a ha).of_sub hsub).of_child hchild
        | dynamic x =>
          simp only [genSingle] at hcb
          cases hg : writeDynamic (codegenTrie fuel) x c with
          | error e => simp [hg] at hcb
          | ok b =>
            simp only [hg, Except.ok.injEq] at hcb
            subst hcb
            simp only [blockLiterals, Stmt.literals, List.nil_append] at ha
            exact (writeDynamic_literals hg (fun b' hb' => ih c b' hwc hb') a ha).of_child hchild
      · simp only [genMulti] at hcb
        have hstart : ∀ b : Bool, blockLiterals
            (if b then [Stmt.blank, .letStart, .blank] else []) = [] := by
          intro b; cases b <;> simp [blockLiterals, Stmt.literals]
        cases hup : unambiguousPrefix fuel [] 0 t with
        | mk s ln =>
          obtain ⟨l, next⟩ := ln
          simp only [hup] at hcb
          obtain ⟨u, _, hsub⟩ := unambiguousPrefix_sub _ _ _ _ _ _ _ hwf hup
          split at hcb
          · cases hdyn : findDynamic t.children with
            | none => simp [hdyn] at hcb
            | some xc =>
              obtain ⟨x, c⟩ := xc
              simp only [hdyn] at hcb
              have hchild := hmem (findDynamic_mem hdyn)
              cases hg : codegenTrie fuel next with
              | error e => simp [hg] at hcb
              | ok b =>
                simp only [hg] at hcb
                cases hw : writeDynamic (codegenTrie fuel) x c with
                | error e => simp [hw] at hcb
                | ok b' =>
                  simp only [hw, Except.ok.injEq] at hcb
                  subst hcb
                  simp only [blockLiterals_append, hstart, List.nil_append, List.mem_append,
                    blockLiterals, Stmt.literals, armsLiterals, Arm.literals, List.append_nil] at ha
                  rcases ha with ha | ha
                  · exact (ih next b (hwf.of_sub hsub) hg a ha).of_sub hsub
                  · exact (writeDynamic_literals hw (fun b' hb' => ih c b' (hwf.of_child hchild) hb')
                      a ha).of_child hchild
          · cases hg : ambiguousArms (codegenTrie fuel) t.children with
            | error e => simp [hg] at hcb
            | ok arms =>
              simp only [hg, Except.ok.injEq] at hcb
              subst hcb
              simp only [blockLiterals_append, hstart, List.nil_append, blockLiterals,
                Stmt.literals, armsLiterals_append, armsLiterals, Arm.literals, List.append_nil] at ha
              obtain ⟨k, c, hm, hf⟩ := ambiguousArms_literals _ _ hg
                (fun k c hm b hb => ih c b (hwf.of_child (hmem hm)) hb) a ha
              exact hf.of_child (hmem hm)

end Wayfinder
