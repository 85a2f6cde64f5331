import Verif.Proofs.Desc
/-!
# Facts about the reference router
-/

namespace Wayfinder

variable {W : World} {m : Bytes}

theorem routeStatic_eq_none {q : List Param} {caps : Caps W} {bs : Bytes} :
    ∀ {ns : List NestedRoutes}, (∀ n ∈ ns, routeStatic1 W m n q caps bs = none) →
      routeStatic W m ns q caps bs = none
  | [], _ => by simp [routeStatic]
  | n :: ns, h => by
    simp only [routeStatic, h n (by simp)]
    exact routeStatic_eq_none fun n' hn' => h n' (by simp [hn'])

theorem routeStatic_filter {q : List Param} {caps : Caps W} {bs : Bytes} (f : NestedRoutes → Bool) :
    ∀ {ns : List NestedRoutes}, (∀ n ∈ ns, f n = false → routeStatic1 W m n q caps bs = none) →
      routeStatic W m ns q caps bs = routeStatic W m (ns.filter f) q caps bs
  | [], _ => by simp
  | n :: ns, h => by
    have ih := routeStatic_filter (bs := bs) (q := q) (caps := caps) f (ns := ns)
      (fun n' hn' => h n' (by simp [hn']))
    cases hf : f n with
    | true => simp only [routeStatic, List.filter_cons, hf, if_true]; rw [ih]
    | false =>
      simp only [routeStatic, List.filter_cons, hf, h n (by simp) hf]
      simpa using ih

theorem routeStatic1_dynamic {n : NestedRoutes} {p : Param} (h : n.pathSegment = .dynamic p)
    (q : List Param) (caps : Caps W) (bs : Bytes) : routeStatic1 W m n q caps bs = none := by
  obtain ⟨seg, r⟩ := n
  simp only [NestedRoutes.pathSegment_mk] at h
  subst h
  simp [routeStatic1]

theorem routeStatic1_not_prefix {n : NestedRoutes} {s : Str} (h : n.pathSegment = .static s)
    {bs : Bytes} (hp : ¬ bytesOf s <+: bs) (q : List Param) (caps : Caps W) :
    routeStatic1 W m n q caps bs = none := by
  obtain ⟨seg, r⟩ := n
  simp only [NestedRoutes.pathSegment_mk] at h
  subst h
  simp [routeStatic1, hp]

/-- What happens behind the segment of a block. -/
def enter (W : World) (m : Bytes) (r : Routes) (q : List Param) (caps : Caps W) : Bytes → Outcome W
  | [] => atEnd m r q caps
  | b :: rest => if b = slash then route W m r q caps rest else .notFound

theorem routeStatic1_prefix {n : NestedRoutes} {s : Str} (h : n.pathSegment = .static s)
    (bs : Bytes) (q : List Param) (caps : Caps W) :
    routeStatic1 W m n q caps (bytesOf s ++ bs) = some (enter W m n.routes q caps bs) := by
  obtain ⟨seg, r⟩ := n
  simp only [NestedRoutes.pathSegment_mk] at h
  subst h
  have hd : (bytesOf s ++ bs).drop s.length = bs := by
    have : s.length = (bytesOf s).length := by simp [bytesOf]
    rw [this, List.drop_left]
  have hp : (bytesOf s).isPrefixOf (bytesOf s ++ bs) = true := by
    rw [List.isPrefixOf_iff_prefix]; exact List.prefix_append _ _
  simp only [routeStatic1, hp, if_true, hd, NestedRoutes.routes_mk]
  cases bs with
  | nil => rfl
  | cons b rest => simp only [enter]; split <;> rfl

theorem routeStatic_kids (ns : List NestedRoutes) (q : List Param) (caps : Caps W) (bs : Bytes) :
    routeStatic W m ns q caps bs = routeStatic W m (kidsFrom ns []) q caps bs := by
  apply routeStatic_filter
  intro n _ hf
  cases hs : n.pathSegment with
  | static s => simp [hs] at hf
  | dynamic p => exact routeStatic1_dynamic hs q caps bs

@[simp] theorem bytesOf_nil : bytesOf [] = [] := rfl
@[simp] theorem bytesOf_cons (c : Char) (s : Str) : bytesOf (c :: s) = asciiByte c :: bytesOf s := rfl
@[simp] theorem bytesOf_append (a b : Str) : bytesOf (a ++ b) = bytesOf a ++ bytesOf b := by
  simp [bytesOf]
@[simp] theorem bytesOf_length (a : Str) : (bytesOf a).length = a.length := by simp [bytesOf]

theorem asciiByte_inj {a b : Char} (ha : byteStrChar a = true) (hb : byteStrChar b = true)
    (h : asciiByte a = asciiByte b) : a = b := by
  simp only [byteStrChar, Bool.and_eq_true, decide_eq_true_eq] at ha hb
  apply Char.toNat_inj'
  have h1 : a.toNat < 256 := by omega
  have h2 : b.toNat < 256 := by omega
  have := congrArg UInt8.toNat h
  simp only [asciiByte, UInt8.toNat_ofNat'] at this
  omega

theorem byteStrChar_utf8Size {c : Char} (h : byteStrChar c = true) : c.utf8Size = 1 := by
  simp only [byteStrChar, Bool.and_eq_true, decide_eq_true_eq] at h
  have : c.toNat ≤ 127 := by omega
  unfold Char.utf8Size
  have h2 : c.val.toNat ≤ 127 := this
  have h3 : c.val ≤ 0x7f := by
    rw [UInt32.le_iff_toNat_le]; exact h2
  simp [h3]

theorem utf8Len_eq {s : Str} (h : s.all byteStrChar = true) : utf8Len s = s.length := by
  induction s with
  | nil => rfl
  | cons c s ih =>
    simp only [List.all_cons, Bool.and_eq_true] at h
    have h1 := byteStrChar_utf8Size h.1
    have h2 := ih h.2
    simp only [utf8Len] at h2
    simp only [utf8Len, List.map_cons, List.sum_cons, List.length_cons, h1, h2]
    omega

/-- The path goes on with a character that a child has. -/
theorem routeStatic_step {ns : List NestedRoutes} {u : Str} {c : Char} {q : List Param} {caps : Caps W}
    {bs : Bytes}
    (hne : ∀ n ∈ ns, n.pathSegment ≠ .static u)
    (hc : byteStrChar c = true)
    (hchars : ∀ n ∈ ns, ∀ c' rest, n.pathSegment = .static (u ++ c' :: rest) → byteStrChar c' = true) :
    routeStatic W m (kidsFrom ns u) q caps (bytesOf u ++ asciiByte c :: bs) =
      routeStatic W m (kidsFrom ns (u ++ [c])) q caps (bytesOf (u ++ [c]) ++ bs) := by
  have hk : kidsFrom ns (u ++ [c]) = (kidsFrom ns u).filter fun n => match n.pathSegment with
      | .static s => (u ++ [c]).isPrefixOf s
      | .dynamic _ => false := by
    simp only [kidsFrom, List.filter_filter]
    apply List.filter_congr
    intro n _
    cases n.pathSegment with
    | dynamic p => rfl
    | static s =>
      simp only
      rw [Bool.eq_iff_iff, Bool.and_eq_true]
      simp only [List.isPrefixOf_iff_prefix]
      constructor
      · intro h; exact ⟨h, (List.prefix_append u [c]).trans h⟩
      · intro h; exact h.1
  rw [hk]
  have hb : bytesOf (u ++ [c]) ++ bs = bytesOf u ++ asciiByte c :: bs := by simp
  rw [hb]
  apply routeStatic_filter
  intro n hn hf
  obtain ⟨hn, rest, hseg⟩ := mem_kidsFrom.1 hn
  simp only [hseg] at hf
  cases rest with
  | nil => exact absurd (by simpa using hseg) (hne n hn)
  | cons c' rest =>
    have hcc : c' ≠ c := by
      rintro rfl
      have : (u ++ [c']).isPrefixOf (u ++ c' :: rest) = true := by
        rw [List.isPrefixOf_iff_prefix]; exact ⟨rest, by simp⟩
      rw [this] at hf; cases hf
    refine routeStatic1_not_prefix hseg ?_ q caps
    rintro ⟨t, ht⟩
    simp only [bytesOf_append, bytesOf_cons, List.append_assoc, List.append_cancel_left_eq,
      List.cons_append, List.cons.injEq] at ht
    exact hcc (asciiByte_inj (hchars n hn c' rest hseg) hc ht.1)

/-- The path goes on with a character that no child has, or ends. -/
theorem routeStatic_stop {ns : List NestedRoutes} {u : Str} {q : List Param} {caps : Caps W}
    {bs : Bytes}
    (hne : ∀ n ∈ ns, n.pathSegment ≠ .static u)
    (hchars : ∀ n ∈ ns, ∀ c' rest, n.pathSegment = .static (u ++ c' :: rest) →
      bs.head? ≠ some (asciiByte c')) :
    routeStatic W m (kidsFrom ns u) q caps (bytesOf u ++ bs) = none := by
  apply routeStatic_eq_none
  intro n hn
  obtain ⟨hn, rest, hseg⟩ := mem_kidsFrom.1 hn
  cases rest with
  | nil => exact absurd (by simpa using hseg) (hne n hn)
  | cons c' rest =>
    refine routeStatic1_not_prefix hseg ?_ q caps
    rintro ⟨t, ht⟩
    simp only [bytesOf_append, bytesOf_cons, List.append_assoc, List.append_cancel_left_eq,
      List.cons_append] at ht
    exact hchars n hn c' rest hseg (by rw [← ht]; rfl)

/-- All children go on with `w`, the path does not. -/
theorem routeStatic_chain_stop {ns : List NestedRoutes} {u w : Str} {q : List Param} {caps : Caps W}
    {bs : Bytes} (hk : kidsFrom ns u = kidsFrom ns (u ++ w)) (hw : ¬ bytesOf w <+: bs) :
    routeStatic W m (kidsFrom ns u) q caps (bytesOf u ++ bs) = none := by
  apply routeStatic_eq_none
  intro n hn
  rw [hk] at hn
  obtain ⟨hn, rest, hseg⟩ := mem_kidsFrom.1 hn
  refine routeStatic1_not_prefix hseg ?_ q caps
  rintro ⟨t, ht⟩
  simp only [bytesOf_append, List.append_assoc, List.append_cancel_left_eq] at ht
  exact hw ⟨_, ht⟩

/-- A unique parameter child of that name captures. -/
theorem routeParam_unique {x : Str} {q : List Param} {caps : Caps W} {bs : Bytes} {n : NestedRoutes}
    {p : Param} {o : Outcome W} (hseg : n.pathSegment = .dynamic p) (hx : p.name = x)
    (ho : routeParam1 W m x n q caps bs = some o) :
    ∀ {ns : List NestedRoutes}, n ∈ ns →
      (ns.Pairwise fun a b => ¬ SameSlot a.pathSegment b.pathSegment) →
      routeParam W m x ns q caps bs = o
  | n' :: ns, hn, hd => by
    obtain ⟨h1, h2⟩ := List.pairwise_cons.1 hd
    simp only [routeParam]
    rcases List.mem_cons.1 hn with rfl | hn
    · rw [ho]
    · have hnone : routeParam1 W m x n' q caps bs = none := by
        obtain ⟨seg', r'⟩ := n'
        cases seg' with
        | static s => simp [routeParam1]
        | dynamic p' =>
          rename_i hn'
          have := h1 n ‹n ∈ ns›
          rw [hseg] at this
          simp only [NestedRoutes.pathSegment_mk, SameSlot] at this
          simp [routeParam1, hx ▸ this]
      rw [hnone]
      exact routeParam_unique hseg hx ho hn h2

/-! ## The capturing child -/

theorem str_le_iff {a b : Str} : a ≤ b ↔ a = b ∨ Str.cmp a b = .lt := by
  have hlt : ∀ a b : Str, a < b ↔ Str.cmp a b = .lt := by
    intro a
    induction a with
    | nil => intro b; cases b <;> simp [Str.cmp]
    | cons x xs ih =>
      intro b
      cases b with
      | nil => simp [Str.cmp]
      | cons y ys =>
        rw [List.cons_lt_cons_iff]
        simp only [Str.cmp]
        by_cases h1 : x.toNat < y.toNat
        · have : x < y := h1
          simp [h1, this]
        · by_cases h2 : y.toNat < x.toNat
          · have hx : ¬ x < y := h1
            have hne : x ≠ y := by rintro rfl; omega
            simp [h1, h2, hx, hne]
          · have hxy : x = y := Char.toNat_inj' (by omega)
            subst hxy
            have hx : ¬ x < x := h1
            simp [hx, ih ys]
  have hnlt : a ≤ b ↔ ¬ b < a := Iff.rfl
  rw [hnlt, hlt]
  constructor
  · intro h
    rcases Str.orderCmp.lt_trichotomy a b with h1 | h1 | h1
    · exact .inr h1
    · exact .inl h1
    · exact absurd h1 h
  · rintro (rfl | h)
    · exact Str.orderCmp.lt_irrefl a
    · exact Str.orderCmp.lt_asymm h

private theorem foldl_minName {x : Str} : ∀ {xs : List Str} {a : Str},
    (a = x ∨ x ∈ xs) → (a = x ∨ Str.cmp x a = .lt) → (∀ y ∈ xs, y = x ∨ Str.cmp x y = .lt) →
    xs.foldl minName a = x
  | [], a, h, _, _ => by
    rcases h with h | h
    · simpa using h
    · cases h
  | y :: ys, a, h, ha, hall => by
    simp only [List.foldl_cons]
    have hy := hall y (by simp)
    have hmin : minName a y = x ∨ minName a y = a ∨ minName a y = y := by
      unfold minName; split <;> simp
    refine foldl_minName ?_ ?_ (fun z hz => hall z (by simp [hz]))
    · by_cases hax : a = x
      · left
        subst hax
        unfold minName
        rw [if_pos]
        rw [str_le_iff]
        rcases hy with h | h
        · exact .inl h.symm
        · exact .inr h
      · rcases h with h | h
        · exact absurd h hax
        · rcases List.mem_cons.1 h with h | h
          · left
            subst h
            unfold minName
            rw [if_neg]
            rw [str_le_iff]
            rintro (h | h)
            · exact hax h
            · rcases ha with ha | ha
              · exact hax ha
              · exact Str.orderCmp.lt_asymm h ha
          · exact .inr h
    · rcases hmin with h | h | h
      · exact .inl h
      · rw [h]; exact ha
      · rw [h]; exact hy

/-- The least parameter name captures. -/
theorem captor_eq {ns : List NestedRoutes} {x : Str} (hx : x ∈ paramNames ns)
    (hall : ∀ y ∈ paramNames ns, y = x ∨ Str.cmp x y = .lt) : captor ns = some x := by
  unfold captor
  cases hp : paramNames ns with
  | nil => rw [hp] at hx; cases hx
  | cons a as =>
    rw [hp] at hx hall
    simp only [Option.some.injEq]
    refine foldl_minName ?_ (hall a (by simp)) (fun y hy => hall y (by simp [hy]))
    rcases List.mem_cons.1 hx with h | h
    · exact .inl h.symm
    · exact .inr h

theorem mem_paramNames {ns : List NestedRoutes} {x : Str} :
    x ∈ paramNames ns ↔ ∃ n ∈ ns, ∃ p, n.pathSegment = .dynamic p ∧ p.name = x := by
  simp only [paramNames, List.mem_filterMap]
  constructor
  · rintro ⟨n, hn, h⟩
    cases hs : n.pathSegment with
    | static s => simp [hs] at h
    | dynamic p => simp [hs] at h; exact ⟨n, hn, p, hs, h⟩
  · rintro ⟨n, hn, p, hs, h⟩
    exact ⟨n, hn, by simp [hs, h]⟩

theorem mem_staticTexts {ns : List NestedRoutes} {s : Str} :
    s ∈ staticTexts ns ↔ ∃ n ∈ ns, n.pathSegment = .static s := by
  simp only [staticTexts, List.mem_filterMap]
  constructor
  · rintro ⟨n, hn, h⟩
    cases hs : n.pathSegment with
    | dynamic p => simp [hs] at h
    | static s' => simp [hs] at h; exact ⟨n, hn, by rw [hs, h]⟩
  · rintro ⟨n, hn, hs⟩
    exact ⟨n, hn, by simp [hs]⟩

/-- If a node inside a segment has only the separator below it, one child has exactly that text. -/
theorem kidsFrom_single {ns : List NestedRoutes} {u : Str} {n : NestedRoutes}
    (hd : ns.Pairwise fun a b => ¬ SameSlot a.pathSegment b.pathSegment)
    (hn : n ∈ ns) (hseg : n.pathSegment = .static u)
    (hall : ∀ n' ∈ ns, ∀ rest, n'.pathSegment = .static (u ++ rest) → rest = []) :
    kidsFrom ns u = [n] := by
  induction ns with
  | nil => cases hn
  | cons a ns ih =>
    obtain ⟨h1, h2⟩ := List.pairwise_cons.1 hd
    rcases List.mem_cons.1 hn with rfl | hn'
    · have : kidsFrom ns u = [] := by
        simp only [kidsFrom, List.filter_eq_nil_iff]
        intro b hb
        cases hs : b.pathSegment with
        | dynamic p => simp
        | static s =>
          simp only [List.isPrefixOf_iff_prefix]
          rintro ⟨rest, hr⟩
          have := hall b (by simp [hb]) rest (by rw [hs, hr])
          subst this
          refine h1 b hb ?_
          rw [hseg, hs, ← hr]; simp [SameSlot]
      have h3 : kidsFrom (n :: ns) u = n :: kidsFrom ns u := by
        simp [kidsFrom, List.filter_cons, hseg]
      rw [h3, this]
    · have h3 : kidsFrom (a :: ns) u = kidsFrom ns u := by
        have : (match a.pathSegment with
          | .static s => u.isPrefixOf s
          | .dynamic _ => false) = false := by
          cases hs : a.pathSegment with
          | dynamic p => rfl
          | static s =>
            simp only
            rw [Bool.eq_false_iff, ne_eq, List.isPrefixOf_iff_prefix]
            rintro ⟨rest, hr⟩
            have := hall a (by simp) rest (by rw [hs, hr])
            subst this
            refine h1 n hn' ?_
            rw [hseg, hs, ← hr]; simp [SameSlot]
        unfold kidsFrom
        rw [List.filter_cons_of_neg]
        rw [Bool.not_eq_true]
        exact this
      rw [h3]
      exact ih h2 hn' (fun n' hn'' => hall n' (by simp [hn'']))

end Wayfinder
