import Verif.Spec.Links
import Verif.Props.Text
import Verif.Props.Client
/-!
# C82: when links coincide
-/

namespace Wayfinder
open Rust

variable {W : World}

theorem intercalate_flat (x : Str) (xs : List Str) : List.intercalate c!"/" (x :: xs) = x ++ xs.flatMap ('/' :: ·) := by
  induction xs generalizing x with
  | nil => simp [List.intercalate_singleton]
  | cons y xs ih => rw [List.intercalate_cons_cons, ih]; simp

theorem before_slash {x y a b : Str} (hx : '/' ∉ x) (hy : '/' ∉ y) (ha : a = [] ∨ ∃ a', a = '/' :: a') (hb : b = [] ∨ ∃ b', b = '/' :: b')
    (h : x ++ a = y ++ b) : x = y ∧ a = b := by
  have key : ∀ {x a : Str}, '/' ∉ x → (a = [] ∨ ∃ a', a = '/' :: a') → (x ++ a).takeWhile (fun c => c != '/') = x := by
    intro x a hx ha
    rw [List.takeWhile_append_of_pos (fun c hc => by simp; rintro rfl; exact hx hc)]
    rcases ha with rfl | ⟨a', rfl⟩ <;> simp
  have h1 := key hx ha
  rw [h, key hy hb] at h1
  subst h1
  exact ⟨rfl, List.append_cancel_left h⟩

theorem flat_start (xs : List Str) : xs.flatMap ('/' :: ·) = [] ∨ ∃ a, xs.flatMap ('/' :: ·) = '/' :: a := by
  cases xs with
  | nil => exact .inl rfl
  | cons x xs => exact .inr ⟨_, rfl⟩

theorem flat_inj {xs ys : List Str} (hx : ∀ t ∈ xs, '/' ∉ t) (hy : ∀ t ∈ ys, '/' ∉ t)
    (h : xs.flatMap ('/' :: ·) = ys.flatMap ('/' :: ·)) : xs = ys := by
  induction xs generalizing ys with
  | nil =>
    cases ys with
    | nil => rfl
    | cons y ys => simp at h
  | cons x xs ih =>
    cases ys with
    | nil => simp at h
    | cons y ys =>
      simp only [List.flatMap_cons, List.cons_append, List.cons.injEq, true_and] at h
      obtain ⟨rfl, h1⟩ := before_slash (hx x (by simp)) (hy y (by simp)) (flat_start _) (flat_start _) h
      rw [ih (fun t ht => hx t (by simp [ht])) (fun t ht => hy t (by simp [ht])) h1]

/-- Texts without slashes can be read from the path, except that no text and one empty text give the same path. -/
theorem joined_inj {xs ys : List Str} (hx : ∀ t ∈ xs, '/' ∉ t) (hy : ∀ t ∈ ys, '/' ∉ t) :
    List.intercalate c!"/" xs = List.intercalate c!"/" ys ↔ xs = ys ∨ (xs = [] ∧ ys = [[]]) ∨ (xs = [[]] ∧ ys = []) := by
  constructor
  · intro h
    cases xs with
    | nil =>
      cases ys with
      | nil => exact .inl rfl
      | cons y ys =>
        rw [intercalate_flat] at h
        have h := h.symm
        rw [List.intercalate_nil, List.append_eq_nil_iff] at h
        obtain ⟨rfl, h⟩ := h
        cases ys with
        | nil => exact .inr (.inl ⟨rfl, rfl⟩)
        | cons z ys => simp at h
    | cons x xs =>
      cases ys with
      | nil =>
        rw [intercalate_flat, List.intercalate_nil, List.append_eq_nil_iff] at h
        obtain ⟨rfl, h⟩ := h
        cases xs with
        | nil => exact .inr (.inr ⟨rfl, rfl⟩)
        | cons z ys => simp at h
      | cons y ys =>
        rw [intercalate_flat, intercalate_flat] at h
        obtain ⟨rfl, h1⟩ := before_slash (hx x (by simp)) (hy y (by simp)) (flat_start _) (flat_start _) h
        rw [flat_inj (fun t ht => hx t (by simp [ht])) (fun t ht => hy t (by simp [ht])) h1]
        exact .inl rfl
  · rintro (rfl | ⟨rfl, rfl⟩ | ⟨rfl, rfl⟩) <;> rfl

theorem readSame_iff {display : W.V → Str} {segs segs' : List PathSegment} {caps caps' : Caps W} {texts texts' : List Str}
    (h : Texts display segs caps texts) (h' : Texts display segs' caps' texts') : ReadSame display segs caps segs' caps' ↔ texts = texts' := by
  induction h generalizing segs' caps' texts' with
  | nil =>
    cases h' with
    | nil => exact ⟨fun _ => rfl, fun _ => .nil⟩
    | static => exact ⟨fun h => (by cases h), fun h => (by cases h)⟩
    | dynamic => exact ⟨fun h => (by cases h), fun h => (by cases h)⟩
  | @static segs caps texts s h ih =>
    cases h' with
    | nil => exact ⟨fun h => (by cases h), fun h => (by cases h)⟩
    | @static segs' caps' texts' s' h' =>
      constructor
      · intro hr
        cases hr with
        | fixed _ hr => rw [(ih h').1 hr]
      · intro he
        simp only [List.cons.injEq] at he
        obtain ⟨rfl, he⟩ := he
        exact .fixed _ ((ih h').2 he)
    | @dynamic segs' caps' texts' p v h' =>
      constructor
      · intro hr
        cases hr with
        | right _ _ hr => rw [(ih h').1 hr]
      · intro he
        simp only [List.cons.injEq] at he
        obtain ⟨rfl, he⟩ := he
        exact .right _ _ ((ih h').2 he)
  | @dynamic segs caps texts p v h ih =>
    cases h' with
    | nil => exact ⟨fun h => (by cases h), fun h => (by cases h)⟩
    | @static segs' caps' texts' s' h' =>
      constructor
      · intro hr
        cases hr with
        | left _ _ hr => rw [(ih h').1 hr]
      · intro he
        simp only [List.cons.injEq] at he
        obtain ⟨rfl, he⟩ := he
        exact .left _ _ ((ih h').2 he)
    | @dynamic segs' caps' texts' p' v' h' =>
      constructor
      · intro hr
        cases hr with
        | both _ _ hv hr => rw [(ih h').1 hr, hv]
      · intro he
        simp only [List.cons.injEq] at he
        obtain ⟨hv, he⟩ := he
        exact .both _ _ hv ((ih h').2 he)

theorem texts_slashless {display : W.V → Str} {segs : List PathSegment} {caps : Caps W} {texts : List Str} (h : Texts display segs caps texts)
    (hp : ∀ s, PathSegment.static s ∈ segs → s ≠ [] ∧ '/' ∉ s) (hc : Slashless display caps) : ∀ t ∈ texts, '/' ∉ t := by
  induction h with
  | nil => simp
  | static s h ih =>
    intro t ht
    rcases List.mem_cons.1 ht with rfl | ht
    · exact (hp _ (by simp)).2
    · exact ih (fun s hs => hp s (by simp [hs])) hc t ht
  | dynamic p v h ih =>
    intro t ht
    rcases List.mem_cons.1 ht with rfl | ht
    · exact hc (p, v) (by simp)
    · exact ih (fun s hs => hp s (by simp [hs])) (fun pv hpv => hc pv (by simp [hpv])) t ht

variable {c : RouteConfig} {body : List Stmt} {display : W.V → Str}

/-- **C82.** Links to two actions, with values whose texts have no slashes, coincide **exactly if** the routes read the same segment by
segment, or one of them is the root and the other is a single parameter whose text is empty. -/
theorem C82_same (h : Clean c) (hs : Supported c.routes body) (hp : PlainTexts c.routes)
    {segs segs' : List PathSegment} {query query' : List Param} {res res' : Resource} (hd : Declares c.routes segs query res)
    (hr : res.isRedirect = false) (hd' : Declares c.routes segs' query' res') (hr' : res'.isRedirect = false) {caps caps' : Caps W}
    {texts texts' : List Str} (ht : Texts display segs caps texts) (ht' : Texts display segs' caps' texts')
    (hc : Slashless display caps) (hc' : Slashless display caps') :
    linkTo c display res caps = linkTo c display res' caps' ↔
      ReadSame display segs caps segs' caps' ∨ (segs = [] ∧ ∃ p v, segs' = [.dynamic p] ∧ caps' = [(p, v)] ∧ display v = []) ∨
        (segs' = [] ∧ ∃ p v, segs = [.dynamic p] ∧ caps = [(p, v)] ∧ display v = []) := by
  have h1 := C45_to_path h hs hd hr ht
  have h2 := C45_to_path h hs hd' hr' ht'
  obtain ⟨node, above, g1, -, -⟩ := hd
  obtain ⟨node', above', g1', -, -⟩ := hd'
  have single : ∀ {segs caps}, Texts display segs caps [[]] → (∀ s, PathSegment.static s ∈ segs → s ≠ [] ∧ '/' ∉ s) →
      ∃ p v, segs = [.dynamic p] ∧ caps = [(p, v)] ∧ display v = [] := by
    intro segs caps hh hp
    generalize hx : [([] : Str)] = x at hh
    cases hh with
    | nil => cases hx
    | static s hh =>
      simp only [List.cons.injEq] at hx
      obtain ⟨rfl, -⟩ := hx
      exact absurd rfl (hp [] (by simp)).1
    | dynamic p v hh =>
      simp only [List.cons.injEq] at hx
      obtain ⟨hv, rfl⟩ := hx
      cases hh
      exact ⟨p, v, rfl, rfl, hv.symm⟩
  rw [linkTo, linkTo, h1, h2, Option.some.injEq, List.append_cancel_left_eq,
    joined_inj (texts_slashless ht (hp _ _ _ g1) hc) (texts_slashless ht' (hp _ _ _ g1') hc'), readSame_iff ht ht']
  refine or_congr .rfl (or_congr ?_ ?_)
  · constructor
    · rintro ⟨rfl, rfl⟩
      refine ⟨by cases ht; rfl, single ht' (hp _ _ _ g1')⟩
    · rintro ⟨rfl, p, v, rfl, rfl, hv⟩
      cases ht
      cases ht' with
      | dynamic _ _ hh => cases hh; rw [hv]; exact ⟨rfl, rfl⟩
  · constructor
    · rintro ⟨rfl, rfl⟩
      refine ⟨by cases ht'; rfl, single ht (hp _ _ _ g1)⟩
    · rintro ⟨rfl, p, v, rfl, rfl, hv⟩
      cases ht'
      cases ht with
      | dynamic _ _ hh => cases hh; rw [hv]; exact ⟨rfl, rfl⟩

theorem readSame_self {display : W.V → Str} (hinj : ∀ v v', display v = display v' → v = v') {segs : List PathSegment} {caps caps' : Caps W}
    (h : ReadSame display segs caps segs caps') {texts texts' : List Str} (ht : Texts display segs caps texts)
    (ht' : Texts display segs caps' texts') : caps = caps' := by
  induction ht generalizing caps' texts' with
  | nil => cases ht'; rfl
  | static s _ ih =>
    cases ht' with
    | static _ ht' =>
      cases h with
      | fixed _ h => exact ih h ht'
  | dynamic p v _ ih =>
    cases ht' with
    | dynamic _ v' ht' =>
      cases h with
      | both _ _ hv h => rw [hinj _ _ hv, ih h ht']

/-- **C82, one action.** If different values have different texts, without slashes, then links to one action with different values are
different. -/
theorem C82_injective (h : Clean c) (hs : Supported c.routes body) (hp : PlainTexts c.routes) (hinj : ∀ v v', display v = display v' → v = v')
    {segs : List PathSegment} {query : List Param} {res : Resource} (hd : Declares c.routes segs query res) (hr : res.isRedirect = false)
    {caps caps' : Caps W} {texts texts' : List Str} (ht : Texts display segs caps texts) (ht' : Texts display segs caps' texts')
    (hc : Slashless display caps) (hc' : Slashless display caps') (heq : linkTo c display res caps = linkTo c display res caps') : caps = caps' := by
  rcases (C82_same h hs hp hd hr hd hr ht ht' hc hc').1 heq with hh | ⟨rfl, p, v, hh, -⟩ | ⟨rfl, p, v, hh, -⟩
  · exact readSame_self hinj hh ht ht'
  · cases hh
  · cases hh

theorem ReadSame.overlap {display : W.V → Str} {segs segs' : List PathSegment} {caps caps' : Caps W}
    (h : ReadSame display segs caps segs' caps') : Overlap segs segs' := by
  induction h with
  | nil => exact .nil
  | fixed s _ ih => exact .fixed s ih
  | left p v _ ih => exact .left p _ ih
  | right p v _ ih => exact .right p _ ih
  | both p p' _ _ ih => exact .both p p' ih

theorem Overlap.values {display : W.V → Str} (hall : ∀ s : Str, s ≠ [] → '/' ∉ s → ∃ v, display v = s) {segs segs' : List PathSegment}
    (h : Overlap segs segs') (hp : ∀ s, PathSegment.static s ∈ segs → s ≠ [] ∧ '/' ∉ s) (hp' : ∀ s, PathSegment.static s ∈ segs' → s ≠ [] ∧ '/' ∉ s) :
    ∃ caps caps' texts, Texts display segs caps texts ∧ Texts display segs' caps' texts ∧ Wordy display caps ∧ Wordy display caps' := by
  induction h with
  | nil => exact ⟨[], [], [], .nil, .nil, by simp [Wordy], by simp [Wordy]⟩
  | fixed s _ ih =>
    obtain ⟨caps, caps', texts, h1, h2, h3, h4⟩ := ih (fun s hs => hp s (by simp [hs])) (fun s hs => hp' s (by simp [hs]))
    exact ⟨caps, caps', s :: texts, .static s h1, .static s h2, h3, h4⟩
  | left p s _ ih =>
    obtain ⟨caps, caps', texts, h1, h2, h3, h4⟩ := ih (fun s hs => hp s (by simp [hs])) (fun s hs => hp' s (by simp [hs]))
    obtain ⟨g1, g2⟩ := hp' s (by simp)
    obtain ⟨v, rfl⟩ := hall s g1 g2
    exact ⟨(p, v) :: caps, caps', display v :: texts, .dynamic p v h1, .static _ h2, by
      rintro pv hpv
      rcases List.mem_cons.1 hpv with rfl | hpv
      exacts [⟨g1, g2⟩, h3 pv hpv], h4⟩
  | right p s _ ih =>
    obtain ⟨caps, caps', texts, h1, h2, h3, h4⟩ := ih (fun s hs => hp s (by simp [hs])) (fun s hs => hp' s (by simp [hs]))
    obtain ⟨g1, g2⟩ := hp s (by simp)
    obtain ⟨v, rfl⟩ := hall s g1 g2
    exact ⟨caps, (p, v) :: caps', display v :: texts, .static _ h1, .dynamic p v h2, h3, by
      rintro pv hpv
      rcases List.mem_cons.1 hpv with rfl | hpv
      exacts [⟨g1, g2⟩, h4 pv hpv]⟩
  | both p p' _ ih =>
    obtain ⟨caps, caps', texts, h1, h2, h3, h4⟩ := ih (fun s hs => hp s (by simp [hs])) (fun s hs => hp' s (by simp [hs]))
    obtain ⟨v, hv⟩ := hall c!"x" (by simp) (by simp)
    have hw : display v ≠ [] ∧ '/' ∉ display v := by rw [hv]; simp
    exact ⟨(p, v) :: caps, (p', v) :: caps', display v :: texts, .dynamic p v h1, .dynamic p' v h2, by
      rintro pv hpv
      rcases List.mem_cons.1 hpv with rfl | hpv
      exacts [hw, h3 pv hpv], by
      rintro pv hpv
      rcases List.mem_cons.1 hpv with rfl | hpv
      exacts [hw, h4 pv hpv]⟩

/-- **C82, two actions.** If every word is the text of a value, there are links to two actions that coincide, with words for values, **exactly
if** their routes have the same number of segments and are the same wherever both are fixed. -/
theorem C82_overlap (h : Clean c) (hs : Supported c.routes body) (hp : PlainTexts c.routes)
    (hall : ∀ s : Str, s ≠ [] → '/' ∉ s → ∃ v, display v = s)
    {segs segs' : List PathSegment} {query query' : List Param} {res res' : Resource} (hd : Declares c.routes segs query res)
    (hr : res.isRedirect = false) (hd' : Declares c.routes segs' query' res') (hr' : res'.isRedirect = false) :
    (∃ caps caps' texts texts', Texts display segs caps texts ∧ Texts display segs' caps' texts' ∧ Wordy display caps ∧ Wordy display caps' ∧
      linkTo c display res caps = linkTo c display res' caps') ↔ Overlap segs segs' := by
  constructor
  · rintro ⟨caps, caps', texts, texts', ht, ht', hw, hw', heq⟩
    rcases (C82_same h hs hp hd hr hd' hr' ht ht' (fun pv hpv => (hw pv hpv).2) (fun pv hpv => (hw' pv hpv).2)).1 heq with
      hh | ⟨-, p, v, -, rfl, hv⟩ | ⟨-, p, v, -, rfl, hv⟩
    · exact hh.overlap
    · exact absurd hv (hw' (p, v) (by simp)).1
    · exact absurd hv (hw (p, v) (by simp)).1
  · intro ho
    obtain ⟨node, above, g1, g2, g3⟩ := hd
    obtain ⟨node', above', g1', g2', g3'⟩ := hd'
    obtain ⟨caps, caps', texts, h1, h2, h3, h4⟩ := ho.values hall (hp _ _ _ g1) (hp _ _ _ g1')
    refine ⟨caps, caps', texts, texts, h1, h2, h3, h4, ?_⟩
    rw [linkTo, linkTo, C45_to_path h hs ⟨node, above, g1, g2, g3⟩ hr h1, C45_to_path h hs ⟨node', above', g1', g2', g3'⟩ hr' h2]

theorem argTexts_more {V : Type} {display : V → Str} {bound : List Str} {fields more : List (Str × V)} :
    ∀ {args : List Str} {texts : List Str}, argTexts display bound fields args = some texts →
      argTexts display bound (fields ++ more) args = some texts := by
  have hl : ∀ x v, lookupVar x fields = some v → lookupVar x (fields ++ more) = some v := by
    intro x v h
    induction fields with
    | nil => simp [lookupVar] at h
    | cons f fields ih =>
      obtain ⟨y, w⟩ := f
      simp only [List.cons_append, lookupVar] at h ⊢
      split
      · rename_i hy
        simpa [hy] using h
      · rename_i hy
        simp only [hy, if_false] at h
        exact ih h
  intro args
  induction args with
  | nil => intro texts h; exact h
  | cons x args ih =>
    intro texts h
    simp only [argTexts] at h ⊢
    split at h
    · split at h
      · rename_i hb _ _ v rest h1 h2
        rw [if_pos hb, hl x v h1, ih h2]
        exact h
      · cases h
    · cases h

/-- **C82, query parameters.** What the fields for the query parameters hold does not matter: links do not carry it. -/
theorem C82_query (h : Clean c) (hs : Supported c.routes body) {segs : List PathSegment} {query : List Param} {res : Resource}
    (hd : Declares c.routes segs query res) (hr : res.isRedirect = false) {caps : Caps W} {texts : List Str}
    (ht : Texts display segs caps texts) (values : List (Str × W.V)) :
    callToPath display (headerToks c.headers) (codegen c).text (res.modules.map toSnakeCase) (toCapsCase res.name)
      ((caps.map fun pv => (pv.1.name, pv.2)) ++ values) = linkTo c display res caps := by
  have h1 := C45_to_path h hs hd hr ht
  rw [linkTo, h1]
  simp only [callToPath, Option.bind_eq_bind, Option.bind_eq_some_iff] at h1 ⊢
  obtain ⟨mb, e1, sub, e2, s, e3, tm, e4, args, e5, e6⟩ := h1
  exact ⟨mb, e1, sub, e2, s, e3, tm, e4, args, argTexts_more e5, e6⟩

end Wayfinder

namespace Wayfinder.Demo
open Rust

/-- A root, a page beside the users, and pages of the users. -/
def corner : Routes :=
  .mk [res .get c!"pages" c!"Index"] [.mk (.static c!"about") (.mk [res .get c!"pages" c!"About"] [] []),
    .mk (.dynamic ⟨c!"user", c!"String"⟩) (.mk [res .get c!"pages" c!"Home"]
      [.mk (.dynamic ⟨c!"page", c!"String"⟩) (.mk [res .get c!"pages" c!"Show"] [] [])] [])] []

theorem corner_clean : Clean (conf corner) := clean_of (by decide +kernel)
theorem corner_supported : Supported corner (bodyOf corner) := supported_of (by decide +kernel)
theorem corner_plain : PlainTexts corner := plainTexts_of (by decide)

theorem corner_index : Declares corner [] [] (res .get c!"pages" c!"Index") := mem_declared.1 (by decide +kernel)
theorem corner_about : Declares corner [.static c!"about"] [] (res .get c!"pages" c!"About") := mem_declared.1 (by decide +kernel)
theorem corner_home : Declares corner [.dynamic ⟨c!"user", c!"String"⟩] [] (res .get c!"pages" c!"Home") :=
  mem_declared.1 (by decide +kernel)
theorem corner_show : Declares corner [.dynamic ⟨c!"user", c!"String"⟩, .dynamic ⟨c!"page", c!"String"⟩] [] (res .get c!"pages" c!"Show") :=
  mem_declared.1 (by decide +kernel)

/-- Cases of `C82_same`: the link to the home of the user `about` is the link to the page `about`, that to the home of `ann` is not, and the
link to the home of the user with the empty name is the link to the root. -/
example :
    linkTo (W := world) (conf corner) (fun t : Str => t) (res .get c!"pages" c!"Home") [(⟨c!"user", c!"String"⟩, c!"about")] =
      linkTo (W := world) (conf corner) (fun t : Str => t) (res .get c!"pages" c!"About") [] ∧
    linkTo (W := world) (conf corner) (fun t : Str => t) (res .get c!"pages" c!"Home") [(⟨c!"user", c!"String"⟩, c!"ann")] ≠
      linkTo (W := world) (conf corner) (fun t : Str => t) (res .get c!"pages" c!"About") [] ∧
    linkTo (W := world) (conf corner) (fun t : Str => t) (res .get c!"pages" c!"Index") [] =
      linkTo (W := world) (conf corner) (fun t : Str => t) (res .get c!"pages" c!"Home") [(⟨c!"user", c!"String"⟩, c!"")] := by
  have home (t : Str) (ht : '/' ∉ t) := C82_same (W := world) (display := fun t : Str => t) corner_clean corner_supported corner_plain
    corner_home rfl corner_about rfl (.dynamic _ t .nil) (.static _ .nil) (by simpa [Slashless] using ht) (by simp [Slashless])
  have root := C82_same (W := world) (display := fun t : Str => t) corner_clean corner_supported corner_plain
    corner_index rfl corner_home rfl .nil (.dynamic _ ([] : Str) .nil) (by simp [Slashless]) (by simp [Slashless])
  refine ⟨(home c!"about" (by decide)).2 (.inl ?_), fun h => ?_, root.2 (.inr (.inl ⟨rfl, _, _, rfl, rfl, rfl⟩))⟩
  · exact .left (W := world) (display := fun t : Str => t) _ c!"about" .nil
  · rcases (home c!"ann" (by decide)).1 h with h | ⟨h, -⟩ | ⟨h, -⟩
    · generalize hs : [PathSegment.static c!"about"] = s at h
      cases h with
      | left => exact absurd (PathSegment.static.inj (List.cons.inj hs).1) (by decide)
    · cases h
    · cases h

theorem slashless_two {p q : Param} {a b : Str} (ha : '/' ∉ a) (hb : '/' ∉ b) :
    Slashless (W := world) (fun t : Str => t) [(p, a), (q, b)] := by
  intro pv hpv
  rcases List.mem_cons.1 hpv with rfl | hpv
  · exact ha
  · rw [List.mem_singleton.1 hpv]
    exact hb

theorem texts_two {p q : Param} (a b : Str) : Texts (W := world) (fun t : Str => t) [.dynamic p, .dynamic q] [(p, a), (q, b)] [a, b] :=
  Texts.dynamic (W := world) (display := fun t : Str => t) p a (Texts.dynamic (W := world) (display := fun t : Str => t) q b .nil)

/-- A case of `C82_injective`. -/
example {a b a' b' : Str} (ha : '/' ∉ a) (hb : '/' ∉ b) (ha' : '/' ∉ a') (hb' : '/' ∉ b')
    (h : linkTo (W := world) (conf corner) (fun t : Str => t) (res .get c!"pages" c!"Show")
        [(⟨c!"user", c!"String"⟩, a), (⟨c!"page", c!"String"⟩, b)] =
      linkTo (W := world) (conf corner) (fun t : Str => t) (res .get c!"pages" c!"Show")
        [(⟨c!"user", c!"String"⟩, a'), (⟨c!"page", c!"String"⟩, b')]) : a = a' ∧ b = b' := by
  have := C82_injective (W := world) (display := fun t : Str => t)
    (caps := [(⟨c!"user", c!"String"⟩, a), (⟨c!"page", c!"String"⟩, b)]) (caps' := [(⟨c!"user", c!"String"⟩, a'), (⟨c!"page", c!"String"⟩, b')])
    corner_clean corner_supported corner_plain (fun _ _ h => h) corner_show rfl
    (texts_two a b) (texts_two a' b') (slashless_two ha hb) (slashless_two ha' hb') h
  exact ⟨congrArg Prod.snd (List.cons.inj this).1, congrArg Prod.snd (List.cons.inj (List.cons.inj this).2).1⟩

/-- **C82, slashes.** With slashes it fails: the page `z` of the user `x/y` and the page `y/z` of the user `x` have the same link. -/
theorem C82_slashes : ∃ caps caps' : Caps world, caps ≠ caps' ∧
    linkTo (conf corner) (fun t : Str => t) (res .get c!"pages" c!"Show") caps = some c!"/x/y/z" ∧
    linkTo (conf corner) (fun t : Str => t) (res .get c!"pages" c!"Show") caps' = some c!"/x/y/z" := by
  have go (a b : Str) := C45_to_path (W := world) (display := fun t : Str => t) corner_clean corner_supported corner_show rfl
    (.dynamic _ a (.dynamic _ b .nil))
  refine ⟨_, _, ?_, go c!"x/y" c!"z", go c!"x" c!"y/z"⟩
  intro h
  have h : (c!"x/y" : Str) = c!"x" := congrArg Prod.snd (List.cons.inj h).1
  exact absurd h (by decide)

/-- Cases of `C82_overlap`: homes and the page `about` can have the same link; pages of users and the page `about` cannot. -/
example : (∃ caps caps' texts texts', Texts (W := world) (fun t : Str => t) [.dynamic ⟨c!"user", c!"String"⟩] caps texts ∧
      Texts (W := world) (fun t : Str => t) [.static c!"about"] caps' texts' ∧ Wordy (W := world) (fun t : Str => t) caps ∧
      Wordy (W := world) (fun t : Str => t) caps' ∧
      linkTo (conf corner) (fun t : Str => t) (res .get c!"pages" c!"Home") caps =
        linkTo (conf corner) (fun t : Str => t) (res .get c!"pages" c!"About") caps') ∧
    ¬ ∃ caps caps' texts texts',
      Texts (W := world) (fun t : Str => t) [.dynamic ⟨c!"user", c!"String"⟩, .dynamic ⟨c!"page", c!"String"⟩] caps texts ∧
      Texts (W := world) (fun t : Str => t) [.static c!"about"] caps' texts' ∧ Wordy (W := world) (fun t : Str => t) caps ∧
      Wordy (W := world) (fun t : Str => t) caps' ∧
      linkTo (conf corner) (fun t : Str => t) (res .get c!"pages" c!"Show") caps =
        linkTo (conf corner) (fun t : Str => t) (res .get c!"pages" c!"About") caps' := by
  constructor
  · exact (C82_overlap corner_clean corner_supported corner_plain (fun s _ _ => ⟨s, rfl⟩) corner_home rfl corner_about rfl).2 (.left _ _ .nil)
  · intro h
    have := (C82_overlap corner_clean corner_supported corner_plain (fun s _ _ => ⟨s, rfl⟩) corner_show rfl corner_about rfl).1 h
    cases this with
    | left _ _ h => cases h

/-- A case of `C82_query`: the link to the form for a person, whatever its tab, the verbosity and the language are. -/
example (lang verbose tab : Str) :
    callToPath (V := Str) (fun t => t) (headerToks (conf people).headers) (codegen (conf people)).text [c!"people"] c!"Edit"
      [(c!"id", c!"12"), (c!"lang", lang), (c!"verbose", verbose), (c!"tab", tab)] = some c!"/people/12/edit" := by
  have hd : Declares people [.static c!"people", .dynamic ⟨c!"id", c!"u32"⟩, .static c!"edit"]
      [⟨c!"lang", c!"String"⟩, ⟨c!"verbose", c!"bool"⟩] ⟨.get, [c!"people"], c!"Edit", false, [⟨c!"tab", c!"String"⟩]⟩ :=
    mem_declared.1 (by decide +kernel)
  have hc : Clean (conf people) := clean_of (by decide +kernel)
  have ht : Texts (W := world) (fun t : Str => t) [.static c!"people", .dynamic ⟨c!"id", c!"u32"⟩, .static c!"edit"]
      [(⟨c!"id", c!"u32"⟩, c!"12")] [c!"people", c!"12", c!"edit"] :=
    .static _ (Texts.dynamic (W := world) (display := fun t : Str => t) _ c!"12" (.static _ .nil))
  exact (C82_query (W := world) hc people_supported hd rfl ht [(c!"lang", lang), (c!"verbose", verbose), (c!"tab", tab)]).trans
    (C45_to_path (W := world) hc people_supported hd rfl ht)

end Wayfinder.Demo
