import Verif.Proofs.Decl
import Verif.Proofs.GenTrie
/-!
# All names in the emitted code come from the configuration
-/

namespace Wayfinder.Rust

/-- The names of a key. -/
def KeyNamed (N : Str → Prop) : Charlike → Prop
  | .static c => textChar c = true ∧ c ≠ '\n'
  | .dynamic x => N x
  | .separator => True

/-- The names in a trie. -/
def TrieNamed (N : Str → Prop) (t : RouteTrie) : Prop :=
  ∀ ks v, t.get ks = some v → (∀ k ∈ ks, KeyNamed N k) ∧ ∀ a ∈ methodArms v, ArmNamed N a

variable {N : Str → Prop}

theorem BlockNamed.append : ∀ {a b : List Stmt}, BlockNamed N a → BlockNamed N b → BlockNamed N (a ++ b)
  | [], _, _, hb => hb
  | s :: a, b, ha, hb => by
    simp only [BlockNamed, List.cons_append] at ha ⊢
    exact ⟨ha.1, ha.2.append hb⟩

theorem ArmsNamed.append : ∀ {a b : List Arm}, ArmsNamed N a → ArmsNamed N b → ArmsNamed N (a ++ b)
  | [], _, _, hb => hb
  | s :: a, b, ha, hb => by
    simp only [ArmsNamed, List.cons_append] at ha ⊢
    exact ⟨ha.1, ha.2.append hb⟩

theorem TrieNamed.of_child {t c : RouteTrie} {k : Charlike} (h : TrieNamed N t) (hc : t.child k = some c) : TrieNamed N c := by
  intro ks v hv
  have := h (k :: ks) v (by rw [Trie.get_cons, hc]; exact hv)
  exact ⟨fun x hx => this.1 x (List.mem_cons_of_mem _ hx), this.2⟩

theorem TrieNamed.of_sub {t c : RouteTrie} {ks : List Charlike} (h : TrieNamed N t) (hc : t.sub ks = some c) : TrieNamed N c := by
  intro ks' v hv
  have := h (ks ++ ks') v (by rw [Trie.get_append, hc]; exact hv)
  exact ⟨fun x hx => this.1 x (List.mem_append_right _ hx), this.2⟩

theorem TrieNamed.key {t c : RouteTrie} {k : Charlike} (h : TrieNamed N t) (hw : t.WF Charlike.cmp) (hc : t.child k = some c) :
    KeyNamed N k := by
  obtain ⟨ks, v, hv⟩ := hw.live_child hc
  exact (h (k :: ks) v (by rw [Trie.get_cons, hc]; exact hv)).1 k (List.mem_cons_self ..)

theorem TrieNamed.static_keys : ∀ {u : Str} {t c : RouteTrie}, TrieNamed N t → t.WF Charlike.cmp →
    t.sub (u.map .static) = some c → ∀ x ∈ u, textChar x = true ∧ x ≠ '\n'
  | [], _, _, _, _, _, x, hx => by cases hx
  | a :: u, t, c, h, hw, hs, x, hx => by
    rw [List.map_cons, Trie.sub_cons] at hs
    cases hk : t.child (.static a) with
    | none => simp [hk] at hs
    | some c' =>
      simp only [hk, Option.bind_some] at hs
      rcases List.mem_cons.1 hx with rfl | hx
      · exact h.key hw hk
      · exact (h.of_child hk).static_keys (hw.of_child hk) hs x hx

theorem writeMethods_named {v : FlattenedRoute} (h : ∀ a ∈ methodArms v, ArmNamed N a) : BlockNamed N (writeMethods v) := by
  simpa [writeMethods, BlockNamed, StmtNamed] using h

theorem ownMethods_named {t : RouteTrie} (h : TrieNamed N t) : BlockNamed N (ownMethods t.data) := by
  cases hd : t.data with
  | none => simp [ownMethods, BlockNamed]
  | some v =>
    have := (h [] v (by simp [hd])).2
    simp only [ownMethods]
    split
    · exact writeMethods_named this
    · simp [BlockNamed]

theorem separatorHead_named {t : RouteTrie} (h : TrieNamed N t) : BlockNamed N (separatorHead t.data) := by
  cases hd : t.data with
  | none => simp [separatorHead, BlockNamed, StmtNamed]
  | some v =>
    have := (h [] v (by simp [hd])).2
    simp only [separatorHead]
    split
    · exact writeMethods_named this
    · simp [BlockNamed, StmtNamed]

theorem writeDynamic_named {gen : RouteTrie → Except GenFail (List Stmt)} {x : Str} {t : RouteTrie} {body : List Stmt}
    (h : writeDynamic gen x t = .ok body) (hx : N x) (hgen : ∀ b, gen t = .ok b → BlockNamed N b) : BlockNamed N body ∧ ∃ s ∈ body, s ≠ .blank := by
  obtain ⟨c, _, b, hb, rfl⟩ := writeDynamic_ok h
  refine ⟨BlockNamed.append ?_ (hgen b hb), .whileScan, by simp [dynamicHead], by simp⟩
  simpa [dynamicHead, BlockNamed, StmtNamed] using hx

theorem ambiguousArms_named {gen : RouteTrie → Except GenFail (List Stmt)} :
    ∀ (cs : List (Charlike × RouteTrie)) (arms : List Arm), ambiguousArms gen cs = .ok arms →
      (∀ k c, (k, c) ∈ cs → KeyNamed N k ∧ ∀ b, gen c = .ok b → BlockNamed N b) → ArmsNamed N arms
  | [], arms, h, _ => by
    simp only [ambiguousArms, Except.ok.injEq] at h; subst h; simp [ArmsNamed]
  | (.static ch, t) :: cs, arms, h, hgen => by
    simp only [ambiguousArms] at h
    cases hg : gen t with
    | error e => simp [hg] at h
    | ok b =>
      simp only [hg] at h
      cases hr : ambiguousArms gen cs with
      | error e => simp [hr] at h
      | ok rest =>
        simp only [hr, Except.ok.injEq] at h
        subst h
        have h1 := hgen _ _ (List.mem_cons_self ..)
        have h2 := ambiguousArms_named cs rest hr fun k c hm => hgen k c (List.mem_cons_of_mem _ hm)
        simp only [ArmsNamed, PathArmNamed, BlockNamed, StmtNamed, List.mem_singleton, forall_eq, true_and]
        exact ⟨⟨h1.1, h1.2 b hg⟩, h2⟩
  | (.dynamic p, t) :: cs, arms, h, hgen => by
    simp only [ambiguousArms] at h
    cases hg : writeDynamic gen p t with
    | error e => simp [hg] at h
    | ok b =>
      simp only [hg, Except.ok.injEq] at h
      subst h
      have h1 := hgen _ _ (List.mem_cons_self ..)
      simpa [ArmsNamed, PathArmNamed] using writeDynamic_named hg h1.1 h1.2
  | (.separator, t) :: cs, arms, h, hgen => by
    simp only [ambiguousArms] at h
    cases hr : ambiguousArms gen cs with
    | error e => simp [hr] at h
    | ok rest =>
      simp only [hr, Except.ok.injEq] at h
      subst h
      have h2 := ambiguousArms_named cs rest hr fun k c hm => hgen k c (List.mem_cons_of_mem _ hm)
      simpa [ArmsNamed, PathArmNamed] using h2

theorem codegenTrie_named : ∀ (fuel : Nat) (t : RouteTrie) (body : List Stmt),
    t.WF Charlike.cmp → TrieNamed N t → codegenTrie fuel t = .ok body → BlockNamed N body
  | 0, t, body, _, _, h => by simp [codegenTrie] at h
  | fuel + 1, t, body, hwf, hn, h => by
    obtain ⟨cb, hcb, rfl⟩ := codegenTrie_succ_ok h
    have ih := codegenTrie_named fuel
    have hmem : ∀ {k c}, (k, c) ∈ t.children → t.child k = some c := fun hm =>
      assoc_of_mem Charlike.orderCmp hwf.sorted_children hm
    refine (ownMethods_named hn).append ?_
    simp only [genChildren] at hcb
    split at hcb
    · simp only [Except.ok.injEq] at hcb; subst hcb
      simp [BlockNamed, StmtNamed]
    · rename_i seg c hcs
      have hchild : t.child seg = some c := hmem (by rw [hcs]; simp)
      have hwc := hwf.of_child hchild
      have hnc := hn.of_child hchild
      have hkey := hn.key hwf hchild
      cases seg with
      | separator =>
        simp only [genSingle] at hcb
        cases hg : codegenTrie fuel c with
        | error e => simp [hg] at hcb
        | ok b =>
          simp only [hg, Except.ok.injEq] at hcb
          subst hcb
          refine ((separatorHead_named hnc).append ?_).append (ih c b hwc hnc hg)
          simp [BlockNamed, StmtNamed, ArmsNamed, PathArmNamed]
          decide
      | static ch =>
        simp only [genSingle] at hcb
        cases hsc : staticChain fuel [ch] c with
        | mk s c' =>
          simp only [hsc] at hcb
          obtain ⟨u, hu, hsub⟩ := staticChain_spec _ _ _ _ _ hsc
          cases hg : codegenTrie fuel c' with
          | error e => simp [hg] at hcb
          | ok b =>
            simp only [hg, Except.ok.injEq] at hcb
            subst hcb
            have hs : ∀ x ∈ s, textChar x = true ∧ x ≠ '\n' := by
              intro x hx
              rw [hu] at hx
              rcases List.mem_append.1 hx with hx | hx
              · rw [List.mem_singleton.1 hx]; exact hkey
              · exact hnc.static_keys hwc hsub x hx
            refine BlockNamed.append ?_ (ih c' b (hwc.of_sub hsub) (hnc.of_sub hsub) hg)
            simpa [BlockNamed, StmtNamed, ArmsNamed, PathArmNamed] using hs
      | dynamic x =>
        simp only [genSingle] at hcb
        cases hg : writeDynamic (codegenTrie fuel) x c with
        | error e => simp [hg] at hcb
        | ok b =>
          simp only [hg, Except.ok.injEq] at hcb
          subst hcb
          simp only [BlockNamed, StmtNamed, true_and]
          exact (writeDynamic_named hg hkey fun b' hb' => ih c b' hwc hnc hb').1
    · simp only [genMulti] at hcb
      have hstart : ∀ b : Bool, BlockNamed N (if b then [Stmt.blank, .letStart, .blank] else []) := by
        intro b; cases b <;> simp [BlockNamed, StmtNamed]
      cases hup : unambiguousPrefix fuel [] 0 t with
      | mk s ln =>
        obtain ⟨l, next⟩ := ln
        simp only [hup] at hcb
        obtain ⟨u, hu, hsub⟩ := unambiguousPrefix_sub _ _ _ _ _ _ _ hwf hup
        split at hcb
        · cases hdyn : findDynamic t.children with
          | none => simp [hdyn] at hcb
          | some xc =>
            obtain ⟨x, c⟩ := xc
            simp only [hdyn] at hcb
            have hchild := hmem (findDynamic_mem hdyn)
            cases hg : codegenTrie fuel next with
            | error e => simp [hg] at hcb
            | ok b =>
              simp only [hg] at hcb
              cases hw : writeDynamic (codegenTrie fuel) x c with
              | error e => simp [hw] at hcb
              | ok b' =>
                simp only [hw, Except.ok.injEq] at hcb
                subst hcb
                have hs : ∀ x ∈ s, textChar x = true ∧ x ≠ '\n' := by
                  intro x hx
                  rw [hu, List.nil_append] at hx
                  exact hn.static_keys hwf hsub x hx
                have hb := ih next b (hwf.of_sub hsub) (hn.of_sub hsub) hg
                refine ((hstart _).append ?_).append (writeDynamic_named hw (hn.key hwf hchild) fun b' hb' =>
                  ih c b' (hwf.of_child hchild) (hn.of_child hchild) hb').1
                simp only [BlockNamed, StmtNamed, ArmsNamed, PathArmNamed, and_true, true_and]
                exact ⟨hs, hb⟩
        · cases hg : ambiguousArms (codegenTrie fuel) t.children with
          | error e => simp [hg] at hcb
          | ok arms =>
            simp only [hg, Except.ok.injEq] at hcb
            subst hcb
            have h1 := ambiguousArms_named _ _ hg fun k c hm => ⟨hn.key hwf (hmem hm), fun b hb =>
              ih c b (hwf.of_child (hmem hm)) (hn.of_child (hmem hm)) hb⟩
            refine (hstart _).append ?_
            simp only [BlockNamed, StmtNamed, and_true, true_and]
            exact h1.append (by simp [ArmsNamed, PathArmNamed])

end Wayfinder.Rust
