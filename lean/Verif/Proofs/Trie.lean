import Verif.Model.Trie
/-!
# Facts about the prefix tree

`Trie.get` is the specification view of a trie (a partial function on key paths); `Trie.add` is
shown to be insert-if-absent on it.
-/

namespace Wayfinder

/-- `cmp` is a total order (what `K: Ord` promises). -/
structure OrderCmp {K : Type} (cmp : K → K → Ordering) : Prop where
  eq_iff : ∀ a b, cmp a b = .eq ↔ a = b
  gt_iff : ∀ a b, cmp a b = .gt ↔ cmp b a = .lt
  trans : ∀ a b c, cmp a b = .lt → cmp b c = .lt → cmp a c = .lt

namespace OrderCmp
variable {K : Type} {cmp : K → K → Ordering}

theorem refl (h : OrderCmp cmp) (a : K) : cmp a a = .eq := (h.eq_iff a a).2 rfl

theorem lt_irrefl (h : OrderCmp cmp) (a : K) : cmp a a ≠ .lt := by simp [h.refl a]

theorem ne_of_lt (h : OrderCmp cmp) {a b : K} (hab : cmp a b = .lt) : a ≠ b := by
  rintro rfl; exact h.lt_irrefl a hab

theorem lt_asymm (h : OrderCmp cmp) {a b : K} (hab : cmp a b = .lt) : cmp b a ≠ .lt :=
  fun hba => h.lt_irrefl a (h.trans _ _ _ hab hba)

theorem lt_trichotomy (h : OrderCmp cmp) (a b : K) : cmp a b = .lt ∨ a = b ∨ cmp b a = .lt := by
  cases hc : cmp a b with
  | lt => exact .inl rfl
  | eq => exact .inr (.inl ((h.eq_iff a b).1 hc))
  | gt => exact .inr (.inr ((h.gt_iff a b).1 hc))

end OrderCmp

variable {K V : Type}

/-- Children strictly sorted by key. -/
def SortedKeys (cmp : K → K → Ordering) {α : Type} (cs : List (K × α)) : Prop :=
  cs.Pairwise fun a b => cmp a.1 b.1 = .lt

/-- Contract of the search loop: it ends at an index which is not above the key unless it is `0`,
and everything after it is above the key. -/
theorem binarySearchLoop_spec (c : Nat → Ordering) (n : Nat) :
    ∀ fuel base size, size ≤ fuel → 0 < size → base + size ≤ n →
      (base = 0 ∨ c base ≠ .gt) → (∀ j, base + size ≤ j → j < n → c j = .gt) →
      (∀ i j, i ≤ j → j < n → c i = .gt → c j = .gt) →
      let b := binarySearchLoop c fuel base size
      b < n ∧ (b = 0 ∨ c b ≠ .gt) ∧ (∀ j, b < j → j < n → c j = .gt) := by
  intro fuel
  induction fuel with
  | zero => intro base size h1 h2; omega
  | succ fuel ih =>
    intro base size h1 h2 h3 h4 h5 h6
    simp only [binarySearchLoop]
    by_cases hs : size > 1
    · rw [if_pos hs]
      have hh : size / 2 < size := Nat.div_lt_self h2 (by omega)
      have hh2 : 0 < size / 2 := by omega
      by_cases hc : c (base + size / 2) = .gt
      · rw [if_pos hc]
        refine ih base (size - size / 2) (by omega) (by omega) (by omega) h4 ?_ h6
        intro j hj hjn
        exact h6 (base + size / 2) j (by omega) hjn hc
      · rw [if_neg hc]
        refine ih (base + size / 2) (size - size / 2) (by omega) (by omega) (by omega) (.inr hc) ?_ h6
        intro j hj hjn
        exact h5 j (by omega) hjn
    · rw [if_neg hs]
      refine ⟨by omega, h4, ?_⟩
      intro j hj hjn
      exact h5 j (by omega) hjn

/-- Contract of `binary_search_by_key` on a sorted list. -/
theorem binarySearchByKey_spec {cmp : K → K → Ordering} (hcmp : OrderCmp cmp) {α : Type}
    (xs : List (K × α)) (hs : SortedKeys cmp xs) (c : K) :
    (∃ L x R, xs = L ++ (c, x) :: R ∧ binarySearchByKey cmp xs c = .inl L.length) ∨
    (∃ L R, xs = L ++ R ∧ binarySearchByKey cmp xs c = .inr L.length ∧
      (∀ p ∈ L, cmp p.1 c = .lt) ∧ (∀ p ∈ R, cmp c p.1 = .lt)) := by
  by_cases h0 : xs.length = 0
  · right
    have : xs = [] := List.eq_nil_of_length_eq_zero h0
    subst this
    exact ⟨[], [], rfl, by simp [binarySearchByKey], by simp, by simp⟩
  · let cmpAt : Nat → Ordering := fun i => match xs[i]? with
      | some p => cmp p.1 c
      | none => .gt
    have hat : ∀ i (h : i < xs.length), cmpAt i = cmp (xs[i]).1 c := by
      intro i h; simp only [cmpAt]; rw [List.getElem?_eq_getElem h]
    have hpw := List.pairwise_iff_getElem.1 hs
    have hmono : ∀ i j, i ≤ j → j < xs.length → cmpAt i = .gt → cmpAt j = .gt := by
      intro i j hij hj hi
      rcases Nat.eq_or_lt_of_le hij with rfl | hlt
      · exact hi
      · rw [hat i (by omega)] at hi
        rw [hat j hj]
        have h1 := (hcmp.gt_iff _ _).1 hi
        exact (hcmp.gt_iff _ _).2 (hcmp.trans _ _ _ h1 (hpw i j (by omega) hj hlt))
    have hspec := binarySearchLoop_spec cmpAt xs.length xs.length 0 xs.length (Nat.le_refl _)
      (by omega) (by omega) (.inl rfl) (by intro j h1 h2; omega) hmono
    have hres : binarySearchByKey cmp xs c =
        (match cmpAt (binarySearchLoop cmpAt xs.length 0 xs.length) with
          | .eq => .inl (binarySearchLoop cmpAt xs.length 0 xs.length)
          | .lt => .inr (binarySearchLoop cmpAt xs.length 0 xs.length + 1)
          | .gt => .inr (binarySearchLoop cmpAt xs.length 0 xs.length)) := by
      simp only [binarySearchByKey]; rw [if_neg h0]; rfl
    generalize binarySearchLoop cmpAt xs.length 0 xs.length = b at hspec hres
    obtain ⟨hb, hb0, hgt⟩ := hspec
    have hall_gt : ∀ j (h : j < xs.length), cmpAt j = .gt → cmp c (xs[j]).1 = .lt := by
      intro j h hj; rw [hat j h] at hj; exact (hcmp.gt_iff _ _).1 hj
    have hdrop : ∀ k, (∀ j, k ≤ j → j < xs.length → cmpAt j = .gt) →
        ∀ p ∈ xs.drop k, cmp c p.1 = .lt := by
      intro k hk p hp
      obtain ⟨j, hj, rfl⟩ := List.getElem_of_mem hp
      rw [List.length_drop] at hj
      rw [List.getElem_drop]
      exact hall_gt _ (by omega) (hk _ (by omega) (by omega))
    cases hcb : cmpAt b with
    | eq =>
      left
      rw [hcb] at hres
      refine ⟨xs.take b, (xs[b]).2, xs.drop (b + 1), ?_, ?_⟩
      · have hk : (xs[b]).1 = c := by
          rw [hat b hb] at hcb; exact (hcmp.eq_iff _ _).1 hcb
        have : ((c, (xs[b]).2) : K × α) = xs[b] := by rw [← hk]
        rw [this, ← List.drop_eq_getElem_cons hb, List.take_append_drop]
      · rw [hres, List.length_take]; simp; omega
    | lt =>
      right
      rw [hcb] at hres
      refine ⟨xs.take (b + 1), xs.drop (b + 1), (List.take_append_drop _ _).symm, ?_, ?_, ?_⟩
      · rw [hres, List.length_take]; simp; omega
      · intro p hp
        obtain ⟨j, hj, rfl⟩ := List.getElem_of_mem hp
        rw [List.length_take] at hj
        rw [List.getElem_take]
        rw [hat b hb] at hcb
        rcases Nat.lt_or_ge j b with hjb | hjb
        · exact hcmp.trans _ _ _ (hpw j b (by omega) hb hjb) hcb
        · have : j = b := by omega
          subst this; exact hcb
      · exact hdrop _ (fun j h1 h2 => hgt j (by omega) h2)
    | gt =>
      right
      rw [hcb] at hres
      have hb' : b = 0 := by
        rcases hb0 with h | h
        · exact h
        · exact absurd hcb h
      subst hb'
      refine ⟨[], xs, rfl, by simpa using hres, by simp, ?_⟩
      have := hdrop 0 (fun j _ h2 => by
        rcases Nat.eq_zero_or_pos j with h | h
        · rw [h]; exact hcb
        · exact hgt j h h2)
      simpa using this

theorem insertIdx_append_length {α : Type} (L R : List α) (y : α) :
    (L ++ R).insertIdx L.length y = L ++ y :: R := by
  induction L with
  | nil => simp
  | cons a L ih => simp [ih]

/-! ## Lookup in sorted lists -/

/-- Lookup in an association list. -/
def assoc [DecidableEq K] {α : Type} (k : K) : List (K × α) → Option α
  | [] => none
  | (k', a) :: rest => if k' = k then some a else assoc k rest

theorem assoc_mem [DecidableEq K] {α : Type} {k : K} {a : α} :
    ∀ {cs : List (K × α)}, assoc k cs = some a → (k, a) ∈ cs
  | (k', a') :: rest, h => by
    simp only [assoc] at h
    by_cases hk : k' = k
    · rw [if_pos hk] at h; simp at h; simp [hk, h]
    · rw [if_neg hk] at h; exact List.mem_cons_of_mem _ (assoc_mem h)

theorem assoc_eq_none [DecidableEq K] {α : Type} {k : K} :
    ∀ {cs : List (K × α)}, assoc k cs = none ↔ ∀ p ∈ cs, p.1 ≠ k
  | [] => by simp [assoc]
  | (k', a') :: rest => by
    simp only [assoc, List.mem_cons, forall_eq_or_imp]
    by_cases hk : k' = k
    · simp [hk]
    · simp [hk, assoc_eq_none (cs := rest)]

theorem assoc_append [DecidableEq K] {α : Type} {k : K} :
    ∀ {L R : List (K × α)}, assoc k (L ++ R) = (assoc k L).or (assoc k R)
  | [], R => by simp [assoc]
  | (k', a') :: rest, R => by
    simp only [List.cons_append, assoc]
    by_cases hk : k' = k
    · simp [hk]
    · simp [hk, assoc_append (L := rest)]

theorem assoc_of_mem [DecidableEq K] {cmp : K → K → Ordering} (hcmp : OrderCmp cmp) {α : Type}
    {k : K} {a : α} : ∀ {cs : List (K × α)}, SortedKeys cmp cs → (k, a) ∈ cs → assoc k cs = some a
  | (k', a') :: rest, hs, h => by
    simp only [assoc]
    rcases List.mem_cons.1 h with h | h
    · simp only [Prod.mk.injEq] at h; rw [if_pos h.1.symm, h.2]
    · have hne : k' ≠ k := hcmp.ne_of_lt ((List.pairwise_cons.1 hs).1 _ h)
      rw [if_neg hne]
      exact assoc_of_mem hcmp (List.pairwise_cons.1 hs).2 h

/-- Two sorted association lists with the same lookups are equal. -/
theorem sortedKeys_ext [DecidableEq K] {cmp : K → K → Ordering} (hcmp : OrderCmp cmp) {α : Type} :
    ∀ {xs ys : List (K × α)}, SortedKeys cmp xs → SortedKeys cmp ys →
      (∀ k, assoc k xs = assoc k ys) → xs = ys
  | [], [], _, _, _ => rfl
  | [], (k, a) :: ys, _, _, h => by simpa [assoc] using h k
  | (k, a) :: xs, [], _, _, h => by simpa [assoc] using h k
  | (k, a) :: xs, (k', a') :: ys, hx, hy, h => by
    obtain ⟨hx1, hx2⟩ := List.pairwise_cons.1 hx
    obtain ⟨hy1, hy2⟩ := List.pairwise_cons.1 hy
    have hk : k = k' := by
      rcases hcmp.lt_trichotomy k k' with hlt | heq | hgt
      · exfalso
        have h1 : assoc k ((k, a) :: xs) = some a := by simp [assoc]
        rw [h k] at h1
        rcases List.mem_cons.1 (assoc_mem h1) with he | hm
        · exact hcmp.ne_of_lt hlt (by simp at he; exact he.1)
        · exact hcmp.lt_asymm hlt (hy1 _ hm)
      · exact heq
      · exfalso
        have h1 : assoc k' ((k', a') :: ys) = some a' := by simp [assoc]
        rw [← h k'] at h1
        rcases List.mem_cons.1 (assoc_mem h1) with he | hm
        · exact hcmp.ne_of_lt hgt (by simp at he; exact he.1)
        · exact hcmp.lt_asymm hgt (hx1 _ hm)
    subst hk
    have ha : a = a' := by have := h k; simpa [assoc] using this
    subst ha
    have : xs = ys := by
      refine sortedKeys_ext hcmp hx2 hy2 fun k2 => ?_
      by_cases hk2 : k = k2
      · subst hk2
        rw [assoc_eq_none.2 (fun p hp he => hcmp.ne_of_lt (hx1 p hp) he.symm),
          assoc_eq_none.2 (fun p hp he => hcmp.ne_of_lt (hy1 p hp) he.symm)]
      · have := h k2; simpa [assoc, hk2] using this
    rw [this]

/-! ## Tries as partial functions -/

namespace Trie
variable [DecidableEq K]

/-- The child under a key. -/
def child (t : Trie K V) (k : K) : Option (Trie K V) := assoc k t.children

/-- The subtree under a key path. -/
def sub : Trie K V → List K → Option (Trie K V)
  | t, [] => some t
  | t, k :: ks =>
    match t.child k with
    | none => none
    | some c => c.sub ks

/-- The element stored under a key path. -/
def get (t : Trie K V) (ks : List K) : Option V := (t.sub ks).bind data

@[simp] theorem sub_nil (t : Trie K V) : t.sub [] = some t := by cases t <;> rfl

theorem sub_cons (t : Trie K V) (k : K) (ks : List K) :
    t.sub (k :: ks) = (t.child k).bind fun c => c.sub ks := by
  simp only [sub]; cases t.child k <;> rfl

@[simp] theorem get_nil (t : Trie K V) : t.get [] = t.data := by simp [get]

theorem get_cons (t : Trie K V) (k : K) (ks : List K) :
    t.get (k :: ks) = (t.child k).bind fun c => c.get ks := by
  simp only [get, sub_cons]; cases t.child k <;> rfl

theorem sub_append (t : Trie K V) (ks ks' : List K) :
    t.sub (ks ++ ks') = (t.sub ks).bind fun c => c.sub ks' := by
  induction ks generalizing t with
  | nil => simp
  | cons k ks ih =>
    simp only [List.cons_append, sub_cons]
    cases t.child k with
    | none => rfl
    | some c => simp [ih]

theorem get_append (t : Trie K V) (ks ks' : List K) :
    t.get (ks ++ ks') = (t.sub ks).bind fun c => c.get ks' := by
  simp only [get, sub_append]; cases t.sub ks <;> rfl

/-- Well-formed tries: children sorted without duplicates at every node, and an element below
every proper subtree. -/
structure WF (cmp : K → K → Ordering) (t : Trie K V) : Prop where
  sorted : ∀ ks c, t.sub ks = some c → SortedKeys cmp c.children
  live : ∀ k ks c, t.sub (k :: ks) = some c → ∃ ks' v, c.get ks' = some v

theorem WF.of_child {cmp : K → K → Ordering} {t c : Trie K V} {k : K} (h : WF cmp t)
    (hc : t.child k = some c) : WF cmp c where
  sorted ks c' h' := h.sorted (k :: ks) c' (by simp [sub_cons, hc, h'])
  live k' ks c' h' := h.live k (k' :: ks) c' (by rw [sub_cons, hc]; exact h')

theorem WF.of_sub {cmp : K → K → Ordering} {t c : Trie K V} {ks : List K} (h : WF cmp t)
    (hc : t.sub ks = some c) : WF cmp c := by
  induction ks generalizing t with
  | nil => simp at hc; rwa [← hc]
  | cons k ks ih =>
    rw [sub_cons] at hc
    cases hk : t.child k with
    | none => simp [hk] at hc
    | some c' => rw [hk] at hc; exact ih (h.of_child hk) hc

theorem WF.sorted_children {cmp : K → K → Ordering} {t : Trie K V} (h : WF cmp t) :
    SortedKeys cmp t.children := h.sorted [] t (sub_nil t)

theorem WF.live_child {cmp : K → K → Ordering} {t c : Trie K V} {k : K} (h : WF cmp t)
    (hc : t.child k = some c) : ∃ ks v, c.get ks = some v :=
  h.live k [] c (by simp [sub_cons, hc])

theorem wf_new {cmp : K → K → Ordering} : WF cmp (new : Trie K V) where
  sorted ks c h := by
    cases ks with
    | nil => simp at h; subst h; simp [SortedKeys, new]
    | cons k ks => simp [sub_cons, child, new, assoc] at h
  live k ks c h := by simp [sub_cons, child, new, assoc] at h

theorem get_new (ks : List K) : (new : Trie K V).get ks = none := by
  cases ks with
  | nil => rfl
  | cons k ks => simp [get_cons, child, new, assoc]

/-- Assembling well-formedness from the children. -/
theorem WF.mk' {cmp : K → K → Ordering} {t : Trie K V} (hs : SortedKeys cmp t.children)
    (hc : ∀ k c, t.child k = some c → WF cmp c ∧ ∃ ks v, c.get ks = some v) : WF cmp t where
  sorted ks c h := by
    cases ks with
    | nil => simp at h; subst h; exact hs
    | cons k ks =>
      rw [sub_cons] at h
      cases hk : t.child k with
      | none => simp [hk] at h
      | some c' => rw [hk] at h; exact (hc k c' hk).1.sorted ks c h
  live k ks c h := by
    rw [sub_cons] at h
    cases hk : t.child k with
    | none => simp [hk] at h
    | some c' =>
      rw [hk] at h
      cases ks with
      | nil => simp at h; subst h; exact (hc k c' hk).2
      | cons k2 ks => exact (hc k c' hk).1.live k2 ks c h

omit [DecidableEq K] in
/-- A list splitting `L ++ (c, x) :: R` with smaller keys left and larger keys right. -/
private theorem sorted_splice {cmp : K → K → Ordering} {α : Type}
    {L R : List (K × α)} {c : K} {x : α}
    (hLR : SortedKeys cmp (L ++ R)) (hL : ∀ p ∈ L, cmp p.1 c = .lt)
    (hR : ∀ p ∈ R, cmp c p.1 = .lt) : SortedKeys cmp (L ++ (c, x) :: R) := by
  unfold SortedKeys at *
  rw [List.pairwise_append] at *
  refine ⟨hLR.1, List.pairwise_cons.2 ⟨fun p hp => hR p hp, hLR.2.1⟩, ?_⟩
  intro a ha b hb
  rcases List.mem_cons.1 hb with rfl | hb
  · exact hL a ha
  · exact hLR.2.2 a ha b hb

private theorem assoc_splice {α : Type} {L R : List (K × α)} {c : K} {x : α}
    (hL : ∀ p ∈ L, p.1 ≠ c) (k : K) :
    assoc k (L ++ (c, x) :: R) = if c = k then some x else assoc k (L ++ R) := by
  simp only [assoc_append, assoc]
  by_cases hk : c = k
  · subst hk
    simp [assoc_eq_none.2 hL]
  · simp [hk]

/-- One step of `add` on a non-empty path: the child under the first key is replaced (or
created), everything else is unchanged. -/
theorem add_cons {cmp : K → K → Ordering} (hcmp : OrderCmp cmp) (t : Trie K V)
    (hs : SortedKeys cmp t.children) (c : K) (path : List K) (v : V) :
    (∀ e, add cmp ((t.child c).getD new) path v = .error e → add cmp t (c :: path) v = .error e) ∧
    (∀ tr, add cmp ((t.child c).getD new) path v = .ok tr →
      ∃ t', add cmp t (c :: path) v = .ok t' ∧ t'.data = t.data ∧ SortedKeys cmp t'.children ∧
        ∀ k, t'.child k = if c = k then some tr else t.child k) := by
  obtain ⟨d, cs⟩ := t
  simp only [children_node] at hs
  rcases binarySearchByKey_spec hcmp cs hs c with ⟨L, x, R, rfl, hsearch⟩ | ⟨L, R, rfl, hsearch, hL, hR⟩
  · have hLne : ∀ p ∈ L, cmp p.1 c = .lt := by
      intro p hp
      exact (List.pairwise_append.1 hs).2.2 p hp (c, x) (by simp)
    have hRne : ∀ p ∈ R, cmp c p.1 = .lt := by
      intro p hp
      exact (List.pairwise_cons.1 (List.pairwise_append.1 hs).2.1).1 p hp
    have hchild : (node d (L ++ (c, x) :: R)).child c = some x := by
      simp only [child, children_node]
      exact assoc_of_mem hcmp hs (by simp)
    have hget : (L ++ (c, x) :: R)[L.length]? = some (c, x) := by simp
    have hset : ((L ++ (c, x) :: R).eraseIdx L.length).insertIdx L.length = fun y => L ++ y :: R := by
      funext y
      rw [List.eraseIdx_append_of_length_le (by omega)]
      simp [insertIdx_append_length]
    constructor
    · intro e he
      simp only [hchild, Option.getD_some] at he
      simp only [add, hsearch, hget, he]
    · intro tr htr
      simp only [hchild, Option.getD_some] at htr
      refine ⟨node d (L ++ (c, tr) :: R), ?_, rfl, ?_, ?_⟩
      · simp only [add, hsearch, hget, htr, hset]
      · simp only [children_node]
        have hLR : SortedKeys cmp (L ++ R) := by
          unfold SortedKeys at *
          rw [List.pairwise_append] at *
          exact ⟨hs.1, (List.pairwise_cons.1 hs.2.1).2, fun a ha b hb =>
            hs.2.2 a ha b (List.mem_cons_of_mem _ hb)⟩
        exact sorted_splice hLR hLne hRne
      · intro k
        have h1 : ∀ p ∈ L, p.1 ≠ c := fun p hp => hcmp.ne_of_lt (hLne p hp)
        have h2 : ∀ p ∈ R, p.1 ≠ c := fun p hp he => hcmp.ne_of_lt (hRne p hp) he.symm
        simp only [child, children_node]
        rw [assoc_splice h1, assoc_splice h1]
        by_cases hk : c = k <;> simp [hk]
  · have h1 : ∀ p ∈ L, p.1 ≠ c := fun p hp => hcmp.ne_of_lt (hL p hp)
    have h2 : ∀ p ∈ R, p.1 ≠ c := fun p hp he => hcmp.ne_of_lt (hR p hp) he.symm
    have hchild : (node d (L ++ R)).child c = none := by
      simp only [child, children_node]
      rw [assoc_eq_none]
      intro p hp
      rcases List.mem_append.1 hp with h | h
      · exact h1 p h
      · exact h2 p h
    constructor
    · intro e he
      simp only [hchild, Option.getD_none] at he
      simp only [add, hsearch, he]
    · intro tr htr
      simp only [hchild, Option.getD_none] at htr
      refine ⟨node d (L ++ (c, tr) :: R), ?_, rfl, ?_, ?_⟩
      · simp only [add, hsearch, htr, insertIdx_append_length]
      · exact sorted_splice hs hL hR
      · intro k
        simp only [child, children_node]
        rw [assoc_splice h1]

/-- `add` is insert-if-absent and keeps the tree well-formed. -/
theorem add_spec {cmp : K → K → Ordering} (hcmp : OrderCmp cmp) :
    ∀ (ks : List K) (t : Trie K V) (v : V), WF cmp t →
      (t.get ks = none → ∃ t', add cmp t ks v = .ok t' ∧ WF cmp t' ∧
        ∀ ks', t'.get ks' = if ks = ks' then some v else t.get ks') ∧
      (∀ w, t.get ks = some w → ∃ e, add cmp t ks v = .error e)
  | [], t, v, hwf => by
    obtain ⟨d, cs⟩ := t
    constructor
    · intro h
      simp at h; subst h
      refine ⟨node (some v) cs, rfl, ?_, ?_⟩
      · refine WF.mk' hwf.sorted_children fun k c hk => ?_
        have hk' : (node (none : Option V) cs).child k = some c := hk
        exact ⟨hwf.of_child hk', hwf.live_child hk'⟩
      · intro ks'
        cases ks' with
        | nil => simp
        | cons k ks' => simp [get_cons, child]
    · intro w h
      simp at h; subst h
      exact ⟨_, rfl⟩
  | c :: ks, t, v, hwf => by
    have hsub : WF cmp ((t.child c).getD new) := by
      cases hc : t.child c with
      | none => exact wf_new
      | some c' => exact hwf.of_child hc
    have hgc : t.get (c :: ks) = ((t.child c).getD new).get ks := by
      rw [get_cons]
      cases hc : t.child c with
      | none => simp [get_new]
      | some c' => rfl
    have ih := add_spec hcmp ks ((t.child c).getD new) v hsub
    have hstep := add_cons hcmp t hwf.sorted_children c ks v
    constructor
    · intro h
      obtain ⟨tr, htr, hwtr, hgtr⟩ := ih.1 (hgc ▸ h)
      obtain ⟨t', ht', hd, hst, hch⟩ := hstep.2 tr htr
      refine ⟨t', ht', ?_, ?_⟩
      · refine WF.mk' hst fun k c' hk => ?_
        rw [hch] at hk
        by_cases hck : c = k
        · rw [if_pos hck] at hk
          simp at hk; subst hk
          exact ⟨hwtr, ks, v, by rw [hgtr]; simp⟩
        · rw [if_neg hck] at hk
          exact ⟨hwf.of_child hk, hwf.live_child hk⟩
      · intro ks'
        cases ks' with
        | nil => simp [hd]
        | cons k ks' =>
          rw [get_cons, hch]
          by_cases hck : c = k
          · subst hck
            simp only [if_true, Option.bind_some, hgtr, List.cons.injEq, true_and]
            by_cases hks : ks = ks'
            · simp [hks]
            · simp only [hks, if_false]
              rw [get_cons]
              cases hc : t.child c with
              | none => simp [get_new]
              | some c' => rfl
          · simp [hck, get_cons]
    · intro w h
      obtain ⟨e, he⟩ := ih.2 w (hgc ▸ h)
      exact ⟨e, hstep.1 e he⟩

end Trie

end Wayfinder
