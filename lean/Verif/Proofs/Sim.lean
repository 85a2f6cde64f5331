import Verif.Proofs.Exec
import Verif.Proofs.RouterLemmas
/-!
# The generated program computes the reference router
-/

namespace Wayfinder

/-! ## Accepted code -/

/-- The compiler accepts these statements in some scope. -/
def Accepted (b : List Stmt) : Prop := blockShapeOk b = true ∧ ∃ sc, (checkBlock b sc).isSome = true

/-- The compiler accepts these arms in some scope. -/
def AcceptedArms (as : List Arm) : Prop := armsShapeOk as = true ∧ ∃ sc, checkArms as sc = true

theorem Accepted.append {a b : List Stmt} (h : Accepted (a ++ b)) : Accepted a ∧ Accepted b := by
  obtain ⟨h1, sc, h2⟩ := h
  rw [blockShapeOk_append, Bool.and_eq_true] at h1
  rw [checkBlock_append] at h2
  cases hc : checkBlock a sc with
  | none => simp [hc] at h2
  | some sc' =>
    simp only [hc, Option.bind_some] at h2
    exact ⟨⟨h1.1, sc, by simp [hc]⟩, ⟨h1.2, sc', h2⟩⟩

theorem Accepted.tail {s : Stmt} {b : List Stmt} (h : Accepted (s :: b)) : Accepted b :=
  (Accepted.append (a := [s]) h).2

theorem Accepted.head {s : Stmt} {b : List Stmt} (h : Accepted (s :: b)) : Accepted [s] :=
  (Accepted.append (a := [s]) h).1

theorem Accepted.ifThen {c : Cond} {b rest : List Stmt} (h : Accepted (.ifThen c b :: rest)) :
    Accepted b := by
  obtain ⟨h1, sc, h2⟩ := h.head
  simp only [blockShapeOk, Stmt.shapeOk, Bool.and_true] at h1
  simp only [checkBlock, Stmt.check] at h2
  refine ⟨h1, sc, ?_⟩
  by_cases hb : (checkBlock b sc).isSome = true
  · exact hb
  · simp [hb] at h2

theorem Accepted.matchPath {n : Nat} {as : List Arm} {rest : List Stmt}
    (h : Accepted (.matchPath n as :: rest)) : AcceptedArms as := by
  obtain ⟨h1, sc, h2⟩ := h.head
  simp only [blockShapeOk, Stmt.shapeOk, Bool.and_true] at h1
  simp only [checkBlock, Stmt.check] at h2
  refine ⟨h1, sc, ?_⟩
  by_cases hb : checkArms as sc = true
  · exact hb
  · simp [hb] at h2

theorem Accepted.letParam {x : Str} {T : Option Str} {rest : List Stmt}
    (h : Accepted (.letParam x T :: rest)) : ∃ ty, T = some ty := by
  obtain ⟨_, sc, h2⟩ := h.head
  cases T with
  | some ty => exact ⟨ty, rfl⟩
  | none =>
    simp only [checkBlock, Stmt.check] at h2
    split at h2 <;> simp_all

theorem AcceptedArms.append {a b : List Arm} (h : AcceptedArms (a ++ b)) :
    AcceptedArms a ∧ AcceptedArms b := by
  obtain ⟨h1, sc, h2⟩ := h
  rw [armsShapeOk_append, Bool.and_eq_true] at h1
  rw [checkArms_append, Bool.and_eq_true] at h2
  exact ⟨⟨h1.1, sc, h2.1⟩, ⟨h1.2, sc, h2.2⟩⟩

theorem AcceptedArms.bytes {pat : Str} {b : List Stmt} {as : List Arm}
    (h : AcceptedArms (.bytes pat b :: as)) : pat.all byteStrChar = true ∧ Accepted b := by
  obtain ⟨h1, sc, h2⟩ := h
  simp only [armsShapeOk, Arm.shapeOk, Bool.and_eq_true] at h1
  simp only [checkArms, Arm.check, Bool.and_eq_true] at h2
  exact ⟨h1.1.1, h1.1.2, sc, h2.1⟩

theorem AcceptedArms.tail {a : Arm} {as : List Arm} (h : AcceptedArms (a :: as)) : AcceptedArms as :=
  (AcceptedArms.append (a := [a]) h).2

theorem not_accepted_someSlash {as : List Arm} : ¬ AcceptedArms (.someSlash :: as) := by
  rintro ⟨h1, _⟩
  simp [armsShapeOk, Arm.shapeOk] at h1

theorem not_accepted_stray {b : List Stmt} {as : List Arm} : ¬ AcceptedArms (.stray b :: as) := by
  rintro ⟨h1, _⟩
  simp [armsShapeOk, Arm.shapeOk] at h1

theorem Accepted.nodup {b : List Stmt} (h : Accepted b) : ∀ a ∈ blockLiterals b, a.fieldNames.Nodup := by
  obtain ⟨_, sc, h2⟩ := h
  obtain ⟨sc', h3⟩ := Option.isSome_iff_exists.1 h2
  exact checkBlock_nodup b sc sc' h3

/-- An accepted ambiguous match has only static children. -/
theorem ambiguousArms_accepted {gen : RouteTrie → Except GenFail (List Stmt)} :
    ∀ {cs : List (Charlike × RouteTrie)} {arms rest : List Arm}, ambiguousArms gen cs = .ok arms →
      AcceptedArms (arms ++ rest) → ∀ k c, (k, c) ∈ cs →
      ∃ ch, k = .static ch ∧ byteStrChar ch = true ∧ ∃ b, gen c = .ok b ∧ Accepted b
  | [], _, _, _, _, _, _, hm => by cases hm
  | (.static ch, t) :: cs, arms, rest, h, hok, k, c, hm => by
    simp only [ambiguousArms] at h
    cases hg : gen t with
    | error e => simp [hg] at h
    | ok b =>
      simp only [hg] at h
      cases hr : ambiguousArms gen cs with
      | error e => simp [hr] at h
      | ok as =>
        simp only [hr, Except.ok.injEq] at h
        subst h
        rcases List.mem_cons.1 hm with hm | hm
        · simp only [Prod.mk.injEq] at hm
          obtain ⟨rfl, rfl⟩ := hm
          obtain ⟨h1, h2⟩ := AcceptedArms.bytes hok
          exact ⟨ch, rfl, by simpa using h1, b, hg, h2.tail⟩
        · exact ambiguousArms_accepted hr (AcceptedArms.tail hok) k c hm
  | (.dynamic p, t) :: cs, arms, rest, h, hok, k, c, hm => by
    simp only [ambiguousArms] at h
    cases hg : writeDynamic gen p t with
    | error e => simp [hg] at h
    | ok b =>
      simp only [hg, Except.ok.injEq] at h
      subst h
      exact absurd hok not_accepted_stray
  | (.separator, t) :: cs, arms, rest, h, hok, k, c, hm => by
    simp only [ambiguousArms] at h
    cases hr : ambiguousArms gen cs with
    | error e => simp [hr] at h
    | ok as =>
      simp only [hr, Except.ok.injEq] at h
      subst h
      exact absurd hok not_accepted_someSlash

/-! ## Static runs inside a segment -/

theorem kids_of_single {t c : RouteTrie} {ns : List NestedRoutes} {u : Str} {pth : List PathSegment}
    {q : List Param} {ch : Char} (h : Desc t (StaticItems ns u pth q))
    (honly : ∀ k c', (k, c') ∈ t.children → k = .static ch ∨ ∃ x, k = .dynamic x)
    (_hm : (Charlike.static ch, c) ∈ t.children) :
    kidsFrom ns u = kidsFrom ns (u ++ [ch]) := by
  apply kidsFrom_extend
  intro n hn rest hseg
  cases rest with
  | nil =>
    obtain ⟨t', hm'⟩ := (sep_child_iff h).2 ⟨n, hn, by simpa using hseg⟩
    rcases honly _ _ hm' with h | ⟨x, h⟩ <;> cases h
  | cons ch' rest =>
    obtain ⟨t', hm'⟩ := (static_child_iff h ch').2 ⟨n, hn, rest, hseg⟩
    rcases honly _ _ hm' with h | ⟨x, h⟩
    · simp only [Charlike.static.injEq] at h
      exact ⟨rest, by simp [h]⟩
    · cases h

theorem staticChain_desc {ns : List NestedRoutes} {pth : List PathSegment} {q : List Param} :
    ∀ (fuel : Nat) (acc u : Str) (t : RouteTrie) (s : Str) (t' : RouteTrie),
      Rep t (StaticItems ns u pth q) → staticChain fuel acc t = (s, t') →
      ∃ w, s = acc ++ w ∧ Rep t' (StaticItems ns (u ++ w) pth q) ∧
        kidsFrom ns u = kidsFrom ns (u ++ w) ∧ t'.depth ≤ t.depth
  | 0, acc, u, t, s, t', hr, h => by
    simp only [staticChain, Prod.mk.injEq] at h
    obtain ⟨rfl, rfl⟩ := h
    exact ⟨[], by simp, by simpa using hr, by simp, Nat.le_refl _⟩
  | fuel + 1, acc, u, t, s, t', hr, h => by
    simp only [staticChain] at h
    split at h
    · rename_i ch c hch
      have hm : (Charlike.static ch, c) ∈ t.children := by rw [hch]; simp
      obtain ⟨w, hs, hr', hk, hd⟩ := staticChain_desc fuel _ (u ++ [ch]) _ _ _ (hr.desc.static_child hm) h
      have hk' := kids_of_single hr.desc (ch := ch) (by
        intro k c' hm'
        rw [hch] at hm'
        simp only [List.mem_cons, Prod.mk.injEq, List.not_mem_nil, or_false] at hm'
        exact .inl hm'.1) hm
      refine ⟨ch :: w, by simp [hs], by simpa using hr', by rw [hk', hk]; simp, ?_⟩
      have := Trie.depth_lt_of_mem hm
      omega
    · simp only [Prod.mk.injEq] at h
      obtain ⟨rfl, rfl⟩ := h
      exact ⟨[], by simp, by simpa using hr, by simp, Nat.le_refl _⟩

theorem unambiguousPrefix_desc {ns : List NestedRoutes} {pth : List PathSegment} {q : List Param} :
    ∀ (fuel : Nat) (s u : Str) (l : Nat) (t : RouteTrie) (s' : Str) (l' : Nat) (t' : RouteTrie),
      Rep t (StaticItems ns u pth q) → t.depth ≤ fuel + 1 →
      (∃ n ∈ ns, ∃ rest, n.pathSegment = .static (u ++ rest)) →
      unambiguousPrefix fuel s l t = (s', l', t') →
      ∃ w, s' = s ++ w ∧ Rep t' (StaticItems ns (u ++ w) pth q) ∧
        kidsFrom ns u = kidsFrom ns (u ++ w) ∧ t'.depth ≤ t.depth ∧
        ((l' = l + w.length ∧ ∃ c, (Charlike.separator, c) ∈ t'.children) ∨
         (l' = l + w.length + 1 ∧ (∀ c, (Charlike.separator, c) ∉ t'.children) ∧
          (staticOptions t'.children).length ≠ 1))
  | 0, _, _, _, t, _, _, _, hr, hd, ⟨n, hn, rest, hseg⟩, _ => by
    exfalso
    have hchild : ∃ k c, (k, c) ∈ t.children := by
      cases rest with
      | nil => exact ⟨_, (sep_child_iff hr.desc).2 ⟨n, hn, by simpa using hseg⟩⟩
      | cons ch rest => exact ⟨_, (static_child_iff hr.desc ch).2 ⟨n, hn, rest, hseg⟩⟩
    obtain ⟨k, c, hm⟩ := hchild
    have h1 := Trie.depth_lt_of_mem hm
    have h2 := c.depth_pos
    omega
  | fuel + 1, s, u, l, t, s', l', t', hr, hd, hkid, h => by
    simp only [unambiguousPrefix] at h
    split at h
    · rename_i hsep
      simp only [Prod.mk.injEq] at h
      obtain ⟨rfl, rfl, rfl⟩ := h
      refine ⟨[], by simp, by simpa using hr, by simp, Nat.le_refl _, .inl ⟨by simp, ?_⟩⟩
      obtain ⟨⟨k, c⟩, hm, hk⟩ := List.any_eq_true.1 hsep
      cases k with
      | separator => exact ⟨c, hm⟩
      | static _ => simp [Charlike.isSep] at hk
      | dynamic _ => simp [Charlike.isSep] at hk
    · rename_i hsep
      have hns : ∀ c, (Charlike.separator, c) ∉ t.children := fun c hm =>
        hsep (List.any_eq_true.2 ⟨_, hm, rfl⟩)
      split at h
      · rename_i ch c hopt
        have hm : (Charlike.static ch, c) ∈ t.children := mem_staticOptions.1 (by rw [hopt]; simp)
        have hlt := Trie.depth_lt_of_mem hm
        obtain ⟨w, hs, hr', hk, hdd, hcase⟩ := unambiguousPrefix_desc fuel _ (u ++ [ch]) _ _ _ _ _
          (hr.desc.static_child hm) (by omega) (by
            obtain ⟨n, hn, rest, hseg⟩ := (static_child_iff hr.desc ch).1 ⟨c, hm⟩
            exact ⟨n, hn, rest, by simpa using hseg⟩) h
        have hk' := kids_of_single hr.desc (ch := ch) (by
          intro k c' hm'
          cases k with
          | separator => exact absurd hm' (hns c')
          | dynamic x => exact .inr ⟨x, rfl⟩
          | static ch' =>
            left
            have := mem_staticOptions.2 hm'
            rw [hopt] at this
            simp only [List.mem_cons, Prod.mk.injEq, List.not_mem_nil, or_false] at this
            rw [this.1]) hm
        refine ⟨ch :: w, by simp [hs], by simpa using hr', by rw [hk', hk]; simp, by omega, ?_⟩
        rcases hcase with ⟨hl, hc⟩ | ⟨hl, hc⟩
        · exact .inl ⟨by simp; omega, hc⟩
        · exact .inr ⟨by simp; omega, hc⟩
      · rename_i hne
        simp only [Prod.mk.injEq] at h
        obtain ⟨rfl, rfl, rfl⟩ := h
        refine ⟨[], by simp, by simpa using hr, by simp, Nat.le_refl _, .inr ⟨by simp, hns, ?_⟩⟩
        intro hlen
        obtain ⟨⟨ch, c⟩, hopt⟩ := List.length_eq_one_iff.1 hlen
        exact hne ch c hopt

/-! ## Generated code for particular nodes -/

theorem codegenTrie_sep {fuel : Nat} {t c : RouteTrie} {body : List Stmt}
    (h : codegenTrie fuel t = .ok body) (hc : t.children = [(.separator, c)]) (hd : t.data = none) :
    ∃ k b, fuel = k + 1 ∧ codegenTrie k c = .ok b ∧
      body = separatorHead c.data ++ (.matchPath 1 [.bytes c!"/" [.addI 1], .wildNotFound] :: b) := by
  cases fuel with
  | zero => simp [codegenTrie] at h
  | succ k =>
    obtain ⟨cb, hcb, rfl⟩ := codegenTrie_succ_ok h
    simp only [genChildren, hc, genSingle] at hcb
    cases hg : codegenTrie k c with
    | error e => simp [hg] at hcb
    | ok b =>
      simp only [hg, Except.ok.injEq] at hcb
      refine ⟨k, b, rfl, hg, ?_⟩
      rw [← hcb]
      simp [ownMethods, hd]

/-- Code for a node with a separator and other children is rejected. -/
theorem codegenTrie_sep_only {fuel : Nat} {t c : RouteTrie} {body : List Stmt} {ns : List NestedRoutes}
    {u : Str} {pth : List PathSegment} {q : List Param}
    (hr : Rep t (StaticItems ns u pth q))
    (h : codegenTrie fuel t = .ok body) (hok : Accepted body)
    (hm : (Charlike.separator, c) ∈ t.children) : t.children = [(.separator, c)] := by
  cases fuel with
  | zero => simp [codegenTrie] at h
  | succ k =>
    obtain ⟨cb, hcb, rfl⟩ := codegenTrie_succ_ok h
    have hokcb := hok.append.2
    simp only [genChildren] at hcb
    split at hcb
    · rename_i hcs; rw [hcs] at hm; cases hm
    · rename_i seg c' hcs
      rw [hcs] at hm ⊢
      simp only [List.mem_cons, List.not_mem_nil, or_false] at hm
      rw [hm]
    · have hfd : findDynamic t.children = none :=
        findDynamic_none.2 fun x c' => no_dynamic_child hr.desc x c'
      simp only [genMulti, hfd] at hcb
      split at hcb
      · cases hcb
      · cases hg : ambiguousArms (codegenTrie k) t.children with
        | error e => simp [hg] at hcb
        | ok arms =>
          simp only [hg, Except.ok.injEq] at hcb
          subst hcb
          have hok2 := (Accepted.tail (by simpa using hokcb)).matchPath
          obtain ⟨ch, hk, _⟩ := ambiguousArms_accepted hg hok2 _ _ hm
          cases hk

end Wayfinder
