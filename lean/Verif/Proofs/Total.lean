import Verif.Proofs.Desc
/-!
# The generator never fails once the trie has been built
-/

namespace Wayfinder

/-- Every parameter is followed by a separator. -/
def SepKeys : List Charlike → Prop
  | [] => True
  | .dynamic _ :: [] => False
  | .dynamic _ :: .separator :: rest => SepKeys rest
  | .dynamic _ :: _ :: _ => False
  | _ :: rest => SepKeys rest

theorem SepKeys.tail {k : Charlike} {ks : List Charlike} (h : SepKeys (k :: ks)) : SepKeys ks := by
  cases k with
  | static c => simpa [SepKeys] using h
  | separator => simpa [SepKeys] using h
  | dynamic x =>
    cases ks with
    | nil => simp [SepKeys]
    | cons k' ks =>
      cases k' with
      | separator => simpa [SepKeys] using h
      | static c => simp [SepKeys] at h
      | dynamic y => simp [SepKeys] at h

theorem SepKeys.dynamic {x : Str} {ks : List Charlike} (h : SepKeys (.dynamic x :: ks)) :
    ∃ ks', ks = .separator :: ks' := by
  cases ks with
  | nil => simp [SepKeys] at h
  | cons k' ks =>
    cases k' with
    | separator => exact ⟨ks, rfl⟩
    | static c => simp [SepKeys] at h
    | dynamic y => simp [SepKeys] at h

theorem sepKeys_statics : ∀ (s : Str) (ks : List Charlike), SepKeys ks →
    SepKeys (s.map Charlike.static ++ .separator :: ks)
  | [], ks, h => by simpa [SepKeys] using h
  | c :: s, ks, h => by simpa [SepKeys] using sepKeys_statics s ks h

theorem sepKeys_charlikes : ∀ segs : List PathSegment, SepKeys (charlikes segs)
  | [] => by simp [charlikes_nil, SepKeys]
  | .static s :: segs => by
    rw [charlikes_cons]
    simpa [PathSegment.charlikes] using sepKeys_statics s _ (sepKeys_charlikes segs)
  | .dynamic p :: segs => by
    rw [charlikes_cons]
    simpa [PathSegment.charlikes, SepKeys] using sepKeys_charlikes segs

/-- A trie all of whose elements are stored under keys with separators after parameters. -/
def SepTrie (t : RouteTrie) : Prop := ∀ ks v, t.get ks = some v → SepKeys ks

theorem SepTrie.of_child {t c : RouteTrie} {k : Charlike} (h : SepTrie t) (hc : t.child k = some c) :
    SepTrie c := by
  intro ks v hv
  exact (h (k :: ks) v (by rw [Trie.get_cons, hc]; exact hv)).tail

theorem SepTrie.of_sub {ks : List Charlike} : ∀ {t c : RouteTrie}, SepTrie t → t.sub ks = some c →
    SepTrie c := by
  induction ks with
  | nil => intro t c h hc; simp at hc; rwa [← hc]
  | cons k ks ih =>
    intro t c h hc
    rw [Trie.sub_cons] at hc
    cases hk : t.child k with
    | none => simp [hk] at hc
    | some c' => rw [hk] at hc; exact ih (h.of_child hk) hc

theorem child_of_mem {t c : RouteTrie} {k : Charlike} (h : t.WF Charlike.cmp)
    (hm : (k, c) ∈ t.children) : t.child k = some c :=
  assoc_of_mem Charlike.orderCmp h.sorted_children hm

theorem followed {t c : RouteTrie} {x : Str} (hwf : t.WF Charlike.cmp) (hs : SepTrie t)
    (hm : (Charlike.dynamic x, c) ∈ t.children) : followedBySeparator c = true := by
  have hc := child_of_mem hwf hm
  have hcw := hwf.of_child hc
  have hkey : ∀ k c', (k, c') ∈ c.children → k = .separator := by
    intro k c' hm'
    have hc' := child_of_mem hcw hm'
    obtain ⟨ks, v, hv⟩ := hcw.live_child hc'
    obtain ⟨ks', hks⟩ := (hs (.dynamic x :: k :: ks) v (by
      rw [Trie.get_cons, hc]; simp only [Option.bind_some]; rw [Trie.get_cons, hc']; exact hv)).dynamic
    simp at hks; exact hks.1
  obtain ⟨ks, v, hv⟩ := hwf.live_child hc
  obtain ⟨ks', rfl⟩ := (hs (.dynamic x :: ks) v (by rw [Trie.get_cons, hc]; exact hv)).dynamic
  rw [Trie.get_cons] at hv
  cases hsep : c.child .separator with
  | none => simp [hsep] at hv
  | some d =>
    have hmem := assoc_mem hsep
    have hsort := hcw.sorted_children
    unfold followedBySeparator
    cases hcs : c.children with
    | nil => change (_, _) ∈ c.children at hmem; rw [hcs] at hmem; simp at hmem
    | cons p rest =>
      obtain ⟨k1, c1⟩ := p
      have h1 : k1 = .separator := hkey k1 c1 (by rw [hcs]; simp)
      cases rest with
      | nil => subst h1; rfl
      | cons p2 rest =>
        obtain ⟨k2, c2⟩ := p2
        have h2 : k2 = .separator := hkey k2 c2 (by rw [hcs]; simp)
        rw [hcs] at hsort
        have := (List.pairwise_cons.1 hsort).1 (k2, c2) (by simp)
        subst h1 h2
        exact absurd this (by simp [Charlike.cmp])

theorem writeDynamic_total {gen : RouteTrie → Except GenFail (List Stmt)} {t c : RouteTrie} {x : Str}
    (hwf : t.WF Charlike.cmp) (hs : SepTrie t) (hm : (Charlike.dynamic x, c) ∈ t.children)
    (hgen : ∃ b, gen c = .ok b) : ∃ b, writeDynamic gen x c = .ok b := by
  obtain ⟨b, hb⟩ := hgen
  exact ⟨_, by simp only [writeDynamic, followed hwf hs hm, if_true, hb]; rfl⟩

theorem ambiguousArms_total {gen : RouteTrie → Except GenFail (List Stmt)} {t : RouteTrie}
    (hwf : t.WF Charlike.cmp) (hs : SepTrie t)
    (hgen : ∀ k c, (k, c) ∈ t.children → ∃ b, gen c = .ok b) :
    ∀ cs : List (Charlike × RouteTrie), (∀ p ∈ cs, p ∈ t.children) →
      ∃ arms, ambiguousArms gen cs = .ok arms
  | [], _ => ⟨_, rfl⟩
  | (k, c) :: cs, h => by
    obtain ⟨arms, harms⟩ := ambiguousArms_total hwf hs hgen cs fun p hp => h p (List.mem_cons_of_mem _ hp)
    have hm := h (k, c) (List.mem_cons_self ..)
    obtain ⟨b, hb⟩ := hgen k c hm
    cases k with
    | static ch => exact ⟨_, by simp only [ambiguousArms, hb, harms]; rfl⟩
    | separator => exact ⟨_, by simp only [ambiguousArms, harms]; rfl⟩
    | dynamic x =>
      obtain ⟨d, hd⟩ := writeDynamic_total hwf hs hm ⟨b, hb⟩
      exact ⟨_, by simp only [ambiguousArms, hd]; rfl⟩

theorem exists_dynamic {t : RouteTrie} {p1 p2 : Charlike × RouteTrie}
    {rest : List (Charlike × RouteTrie)} (hcs : t.children = p1 :: p2 :: rest)
    (hwf : t.WF Charlike.cmp) (hsep : t.children.any (fun c => c.1.isSep) = false)
    {ch : Char} {c : RouteTrie} (hopt : staticOptions t.children = [(ch, c)]) :
    ∃ x d, findDynamic t.children = some (x, d) := by
  cases hf : findDynamic t.children with
  | some p => exact ⟨p.1, p.2, rfl⟩
  | none =>
    exfalso
    rw [findDynamic_none] at hf
    have hall : ∀ k c', (k, c') ∈ t.children → k = .static ch := by
      intro k c' hm
      cases k with
      | dynamic x => exact absurd hm (hf x c')
      | separator =>
        have := List.any_eq_false.1 hsep _ hm
        simp [Charlike.isSep] at this
      | static y =>
        have := mem_staticOptions.2 hm
        rw [hopt] at this; simp at this; rw [this.1]
    have hsort := hwf.sorted_children
    rw [hcs] at hsort
    have h1 := hall p1.1 p1.2 (by rw [hcs]; simp)
    have h2 := hall p2.1 p2.2 (by rw [hcs]; simp)
    have hne := Charlike.orderCmp.ne_of_lt ((List.pairwise_cons.1 hsort).1 p2 (by simp))
    exact hne (by rw [h1, h2])

/-- The generator succeeds on every well-formed trie in which parameters end at separators. -/
theorem codegenTrie_total : ∀ (fuel : Nat) (t : RouteTrie), t.depth ≤ fuel → t.WF Charlike.cmp →
    SepTrie t → ∃ body, codegenTrie fuel t = .ok body
  | 0, t, hd, _, _ => by have := t.depth_pos; omega
  | fuel + 1, t, hd, hwf, hs => by
    have sub : ∀ (u : Str) (t' c : RouteTrie), t'.sub (u.map .static) = some c →
        t'.WF Charlike.cmp → SepTrie t' → t'.depth ≤ fuel → ∃ b, codegenTrie fuel c = .ok b := by
      intro u t' c hc hw hs' hd'
      have := Trie.depth_le_of_sub hc
      exact codegenTrie_total fuel c (by omega) (hw.of_sub hc) (hs'.of_sub hc)
    have kid : ∀ k c, (k, c) ∈ t.children → ∃ b, codegenTrie fuel c = .ok b := by
      intro k c hm
      have hc := child_of_mem hwf hm
      have := Trie.depth_lt_of_child hc
      exact codegenTrie_total fuel c (by omega) (hwf.of_child hc) (hs.of_child hc)
    have main : ∃ cb, genChildren fuel t = .ok cb := by
      unfold genChildren
      cases hcs : t.children with
      | nil => exact ⟨_, rfl⟩
      | cons p rest =>
        obtain ⟨k, c⟩ := p
        have hm : (k, c) ∈ t.children := by rw [hcs]; simp
        have hc := child_of_mem hwf hm
        have hdc := Trie.depth_lt_of_child hc
        obtain ⟨b, hb⟩ := kid k c hm
        cases rest with
        | nil =>
          cases k with
          | separator => exact ⟨_, by simp only [genSingle, hb]; rfl⟩
          | dynamic x =>
            obtain ⟨d, hd'⟩ := writeDynamic_total (gen := codegenTrie fuel) hwf hs hm ⟨b, hb⟩
            exact ⟨_, by simp only [genSingle, hd']; rfl⟩
          | static ch =>
            rcases hst : staticChain fuel [ch] c with ⟨s, c'⟩
            obtain ⟨u, _, hu⟩ := staticChain_spec fuel _ _ _ _ hst
            obtain ⟨b', hb'⟩ := sub u c c' hu (hwf.of_child hc) (hs.of_child hc) (by omega)
            exact ⟨_, by simp only [genSingle, hst, hb']; rfl⟩
        | cons p2 rest =>
          simp only
          unfold genMulti
          rcases hu : unambiguousPrefix fuel [] 0 t with ⟨s, l, next⟩
          simp only
          split
          · rename_i hne
            have hne : s ≠ [] := hne
            obtain ⟨u, hs', hsub⟩ := unambiguousPrefix_sub fuel _ _ _ _ _ _ hwf hu
            simp only [List.nil_append] at hs'
            subst hs'
            have hnext : ∃ b, codegenTrie fuel next = .ok b := by
              cases s with
              | nil => exact absurd rfl hne
              | cons y u =>
                simp only [List.map_cons, Trie.sub_cons] at hsub
                cases hy : t.child (.static y) with
                | none => simp [hy] at hsub
                | some c' =>
                  simp only [hy, Option.bind_some] at hsub
                  have := Trie.depth_lt_of_child hy
                  exact sub u c' next hsub (hwf.of_child hy) (hs.of_child hy) (by omega)
            have hdyn : ∃ x d, findDynamic t.children = some (x, d) := by
              cases fuel with
              | zero => simp [unambiguousPrefix] at hu; exact absurd hu.1 hne
              | succ n =>
                simp only [unambiguousPrefix] at hu
                split at hu
                · simp at hu; exact absurd hu.1 hne
                · rename_i hsep
                  split at hu
                  · rename_i hopt
                    exact exists_dynamic hcs hwf (by simpa using hsep) hopt
                  · simp at hu; exact absurd hu.1 hne
            obtain ⟨x, d, hxd⟩ := hdyn
            obtain ⟨bn, hbn⟩ := hnext
            have hxm := findDynamic_mem hxd
            obtain ⟨w, hw⟩ := writeDynamic_total (gen := codegenTrie fuel) hwf hs hxm (kid _ _ hxm)
            exact ⟨_, by simp only [hxd, hbn, hw]; rfl⟩
          · obtain ⟨arms, harms⟩ := ambiguousArms_total hwf hs kid t.children fun p hp => hp
            exact ⟨_, by rw [harms]⟩
    obtain ⟨cb, hcb⟩ := main
    exact ⟨_, by rw [codegenTrie_succ, hcb]⟩

/-- The matcher is generated exactly when siblings are distinct, and the only failure is the
duplicate-path panic. -/
theorem matcherBody_total {r : Routes} (h : DistinctSiblings r) : ∃ body, matcherBody r = .ok body := by
  obtain ⟨t, ht⟩ := (toTrie_isSome_iff r).2 h
  have hrep := toTrie_rep ht
  obtain ⟨b, hb⟩ := codegenTrie_total t.depth t (Nat.le_refl _) hrep.wf (by
    intro ks v hv
    have := ((hrep.get ks v).1 hv).2
    simp only [charlikes_nil, List.nil_append] at this
    rw [← this]; exact sepKeys_charlikes _)
  exact ⟨b, by simp only [matcherBody, ht, hb]⟩

theorem matcherBody_error {r : Routes} (h : ¬ DistinctSiblings r) :
    matcherBody r = .error .duplicatePath := by
  have : toTrie r = none := by
    cases ht : toTrie r with
    | none => rfl
    | some t => exact absurd ((toTrie_isSome_iff r).1 ⟨t, ht⟩) h
  simp only [matcherBody, this]

end Wayfinder
