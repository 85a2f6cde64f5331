import Verif.Spec.Trie
import Verif.Proofs.GenTrie
import Mathlib.Data.List.Induction
/-!
# C26: the prefix tree is a map with insert-if-absent
-/

namespace Wayfinder

variable {K V : Type} [DecidableEq K]

theorem Trie.add_error {cmp : K → K → Ordering} (hcmp : OrderCmp cmp) : ∀ (ks : List K) (t : Trie K V)
    (v w : V), t.WF cmp → t.get ks = some w →
    ∃ s, t.sub ks = some s ∧ t.add cmp ks v = .error (s, v)
  | [], t, v, w, _, h => by
    obtain ⟨d, cs⟩ := t
    simp at h; subst h
    exact ⟨_, Trie.sub_nil _, rfl⟩
  | c :: ks, t, v, w, hwf, h => by
    rw [Trie.get_cons] at h
    cases hc : t.child c with
    | none => simp [hc] at h
    | some c' =>
      simp only [hc, Option.bind_some] at h
      obtain ⟨s, h1, h2⟩ := Trie.add_error hcmp ks c' v w (hwf.of_child hc) h
      refine ⟨s, by simp [Trie.sub_cons, hc, h1], ?_⟩
      exact (Trie.add_cons hcmp t hwf.sorted_children c ks v).1 _ (by simpa [hc] using h2)

theorem Grown.wf {cmp : K → K → Ordering} (hcmp : OrderCmp cmp) {es : List (List K × V)} {t : Trie K V}
    (h : Grown cmp es t) : t.WF cmp := by
  induction h with
  | empty => exact Trie.wf_new
  | @add es t t' ks v _ ha ih =>
    cases hg : t.get ks with
    | none =>
      obtain ⟨t2, h1, h2, _⟩ := (Trie.add_spec hcmp ks t v ih).1 hg
      rw [ha] at h1; cases h1; exact h2
    | some w =>
      obtain ⟨e, he⟩ := (Trie.add_spec hcmp ks t v ih).2 w hg
      rw [ha] at he; cases he

/-- **C26.** In every tree grown from the empty one, adding an element under a path succeeds exactly if
no element is stored under exactly that path; afterwards that path yields the element and every other
path yields what it did before. -/
theorem C26_insert {cmp : K → K → Ordering} (hcmp : OrderCmp cmp) {es : List (List K × V)}
    {t : Trie K V} (h : Grown cmp es t) (ks : List K) (v : V) :
    ((∃ t', t.add cmp ks v = .ok t') ↔ t.get ks = none) ∧
    ∀ t', t.add cmp ks v = .ok t' → t'.get ks = some v ∧ ∀ ks', ks' ≠ ks → t'.get ks' = t.get ks' := by
  have hwf := h.wf hcmp
  cases hg : t.get ks with
  | none =>
    obtain ⟨t', h1, _, h2⟩ := (Trie.add_spec hcmp ks t v hwf).1 hg
    refine ⟨by simp [h1], fun t2 h => ?_⟩
    rw [h1] at h; cases h
    exact ⟨by simp [h2], fun ks' hne => by rw [h2, if_neg (Ne.symm hne)]⟩
  | some w =>
    obtain ⟨e, he⟩ := (Trie.add_spec hcmp ks t v hwf).2 w hg
    exact ⟨by simp [he], fun t2 h => by rw [he] at h; cases h⟩

/-- **C26, histories.** A sequence of insertions goes through exactly if its paths are distinct. -/
theorem C26_history {cmp : K → K → Ordering} (hcmp : OrderCmp cmp) (es : List (List K × V)) :
    (∃ t, Grown cmp es t) ↔ (es.map Prod.fst).Nodup := by
  have key : ∀ es : List (List K × V), (∀ t, Grown cmp es t → (es.map Prod.fst).Nodup ∧
      ∀ ks, t.get ks = lookup es ks) ∧ ((es.map Prod.fst).Nodup → ∃ t, Grown cmp es t) := by
    intro es
    induction es using List.reverseRecOn with
    | nil =>
      refine ⟨fun t h => ?_, fun _ => ⟨_, .empty⟩⟩
      generalize hE : ([] : List (List K × V)) = E at h
      cases h with
      | empty => exact ⟨by simp, fun ks => by simp [Trie.get_new, lookup]⟩
      | add _ _ => simp at hE
    | append_singleton es e ih =>
      obtain ⟨ks, v⟩ := e
      constructor
      · intro t' h
        generalize hE : es ++ [(ks, v)] = E at h
        cases h with
        | empty => simp at hE
        | @add es' t _ ks' v' hg ha =>
          obtain ⟨rfl, he⟩ := List.append_inj' hE rfl
          cases he
          obtain ⟨h1, h2⟩ := ih.1 t hg
          have hC := C26_insert hcmp hg ks v
          have hn : t.get ks = none := hC.1.1 ⟨_, ha⟩
          have hnot : ks ∉ es.map Prod.fst := by
            rw [h2] at hn
            intro hm
            obtain ⟨x, hx, hxk⟩ := List.mem_map.1 hm
            simp only [lookup, Option.map_eq_none_iff, List.find?_eq_none] at hn
            exact hn x hx (by simp [hxk])
          refine ⟨?_, fun ks' => ?_⟩
          · rw [List.map_append, List.nodup_append]
            exact ⟨h1, by simp, by rintro a ham b hb rfl; simp at hb; subst hb; exact hnot ham⟩
          · by_cases hk : ks' = ks
            · rw [hk, (hC.2 _ ha).1]
              rw [h2] at hn
              simp only [lookup, Option.map_eq_none_iff] at hn
              simp [lookup, List.find?_append, hn]
            · rw [(hC.2 _ ha).2 _ hk, h2]
              simp [lookup, List.find?_append, Ne.symm hk]
      · intro hnd
        rw [List.map_append, List.nodup_append] at hnd
        obtain ⟨t, ht⟩ := ih.2 hnd.1
        obtain ⟨t', ht'⟩ := (C26_insert hcmp ht ks v).1.2 (by
          rw [(ih.1 t ht).2]
          simp only [lookup, Option.map_eq_none_iff, List.find?_eq_none]
          intro x hx hxk
          exact hnd.2.2 x.1 (List.mem_map_of_mem hx) ks (by simp) (by simpa using hxk))
        exact ⟨t', .add ht ht'⟩
  exact ⟨fun ⟨t, h⟩ => ((key es).1 t h).1, (key es).2⟩

/-- **C26, contents.** The tree grown by a history holds exactly the inserted elements. -/
theorem C26_contents {cmp : K → K → Ordering} (hcmp : OrderCmp cmp) {es : List (List K × V)}
    {t : Trie K V} (h : Grown cmp es t) (ks : List K) (v : V) :
    t.get ks = some v ↔ (ks, v) ∈ es := by
  induction h generalizing v with
  | empty => simp [Trie.get_new]
  | @add es t t' k w hg ha ih =>
    have hC := C26_insert hcmp hg k w
    have hn : t.get k = none := hC.1.1 ⟨_, ha⟩
    by_cases hk : ks = k
    · subst hk
      have : (ks, v) ∉ es := by rw [← ih, hn]; simp
      simp [(hC.2 _ ha).1, this, eq_comm]
    · rw [(hC.2 _ ha).2 _ hk, ih]
      simp [hk]

/-- **C26, order.** In every node the keys of the children are strictly increasing, so they are sorted and
without duplicates; and every proper subtree holds an element. -/
theorem C26_sorted {cmp : K → K → Ordering} (hcmp : OrderCmp cmp) {es : List (List K × V)}
    {t : Trie K V} (h : Grown cmp es t) {ks : List K} {s : Trie K V} (hs : t.sub ks = some s) :
    (s.children.map Prod.fst).Pairwise (fun a b => cmp a b = .lt) ∧
    (ks ≠ [] → ∃ ks' v, s.get ks' = some v) := by
  have hwf := h.wf hcmp
  refine ⟨List.pairwise_map.2 (hwf.sorted ks s hs), fun hne => ?_⟩
  cases ks with
  | nil => exact absurd rfl hne
  | cons k ks => exact hwf.live k ks s hs

/-- **C26, failure (partial).** A failed insertion hands back the element and the *subtree at the path*,
not the original tree; the rest of the tree is lost.  Missing: "the original tree is returned". -/
theorem C26_failure_partial {cmp : K → K → Ordering} (hcmp : OrderCmp cmp) {es : List (List K × V)}
    {t : Trie K V} (h : Grown cmp es t) {ks : List K} {v w : V} (hw : t.get ks = some w) :
    ∃ s, t.sub ks = some s ∧ t.add cmp ks v = .error (s, v) :=
  Trie.add_error hcmp ks t v w (h.wf hcmp) hw

/-- **C26, failure (refuted).** For every non-empty path the returned tree differs from the original. -/
theorem C26_original_false {cmp : K → K → Ordering} (hcmp : OrderCmp cmp) {es : List (List K × V)}
    {t : Trie K V} (h : Grown cmp es t) {ks : List K} {v w : V} (hw : t.get ks = some w) (hne : ks ≠ []) :
    ∃ s, t.add cmp ks v = .error (s, v) ∧ s ≠ t := by
  obtain ⟨s, h1, h2⟩ := C26_failure_partial (v := v) hcmp h hw
  refine ⟨s, h2, fun he => ?_⟩
  subst he
  cases ks with
  | nil => exact hne rfl
  | cons k ks =>
    rw [Trie.sub_cons] at h1
    cases hc : s.child k with
    | none => simp [hc] at h1
    | some c =>
      simp only [hc, Option.bind_some] at h1
      have := Trie.depth_lt_of_child hc
      have := Trie.depth_le_of_sub h1
      omega

/-- **C26, failure (exact).** A failed insertion returns the original tree exactly if it was at the root. -/
theorem C26_failure_exact {cmp : K → K → Ordering} (hcmp : OrderCmp cmp) {es : List (List K × V)}
    {t : Trie K V} (h : Grown cmp es t) {ks : List K} {v w : V} (hw : t.get ks = some w) :
    t.add cmp ks v = .error (t, v) ↔ ks = [] := by
  constructor
  · intro he
    by_contra hne
    obtain ⟨s, h1, h2⟩ := C26_original_false (v := v) hcmp h hw hne
    rw [he] at h1
    cases h1
    exact h2 rfl
  · rintro rfl
    obtain ⟨s, h1, h2⟩ := C26_failure_partial (v := v) hcmp h hw
    have : s = t := by
      cases t
      simpa [Trie.sub] using h1.symm
    rw [h2, this]

/-- `foo`, `foobar` and `fob` can be inserted one after the other; a second `foo` cannot, and what is
handed back is the subtree below `foo`. -/
example : ∃ t : Trie Char Nat, Grown (fun a b => Charlike.cmp (.static a) (.static b))
      [(c!"foo", 42), (c!"foobar", 0), (c!"fob", 7)] t ∧
    t.get c!"foo" = some 42 ∧ t.get c!"fo" = none ∧
    ∃ s, t.add (fun a b => Charlike.cmp (.static a) (.static b)) c!"foo" 1 = .error (s, 1) ∧
      s.get c!"bar" = some 0 ∧ s.get c!"foobar" = none :=
  ⟨_, .add (es := [(c!"foo", 42), (c!"foobar", 0)]) (.add (es := [(c!"foo", 42)])
    (.add .empty rfl) rfl) rfl, rfl, rfl, _, rfl, rfl, rfl⟩

/-- The order of `char`, as a key order. -/
example : OrderCmp fun a b : Char => Charlike.cmp (.static a) (.static b) where
  eq_iff a b := by rw [Charlike.orderCmp.eq_iff]; simp
  gt_iff _ _ := Charlike.orderCmp.gt_iff _ _
  trans _ _ _ := Charlike.orderCmp.trans _ _ _

end Wayfinder
