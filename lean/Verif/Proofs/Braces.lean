import Verif.Proofs.Clear
import Verif.Spec.Braces
/-!
# Templates with braces
-/

namespace Wayfinder
open Rust

variable {W : World}

theorem Doubled.format {s t : Str} (h : Doubled s t) (rest : Str) (args : List Str) :
    formatText (s ++ rest) args = (formatText rest args).map (t ++ ·) := by
  induction h with
  | nil => simp
  | @char c s t h1 h2 _ ih =>
    have := formatText_plain (s := [c]) (by simpa using fun e => h1 e.symm) (by simpa using fun e => h2 e.symm) (s ++ rest) args
    rw [List.cons_append, show c :: (s ++ rest) = [c] ++ (s ++ rest) from rfl, this, ih]
    simp [Function.comp_def]
  | opening _ ih =>
    rw [List.cons_append, List.cons_append, formatText, ih]
    simp [Function.comp_def]
  | closing _ ih =>
    rw [List.cons_append, List.cons_append, formatText, ih]
    simp [Function.comp_def]

/-- A text without braces is what it prints. -/
theorem doubled_plain : ∀ {s : Str}, '{' ∉ s → '}' ∉ s → Doubled s s
  | [], _, _ => .nil
  | c :: s, h1, h2 => .char (fun e => h1 (by simp [e])) (fun e => h2 (by simp [e]))
      (doubled_plain (fun h => h1 (by simp [h])) fun h => h2 (by simp [h]))

theorem Doubled.length_le {s t : Str} (h : Doubled s t) : t.length ≤ s.length := by
  induction h <;> simp only [List.length_cons, List.length_nil] <;> omega

/-- A text prints as itself exactly if it has no braces. -/
theorem Doubled.same_iff {s t : Str} (h : Doubled s t) : t = s ↔ '{' ∉ s ∧ '}' ∉ s := by
  induction h with
  | nil => simp
  | char h1 h2 _ ih => simp [ih, h1.symm, h2.symm]
  | @opening s t h _ =>
    have := h.length_le
    simp only [List.cons.injEq, true_and, List.mem_cons, true_or, not_true_eq_false, false_and, iff_false]
    rintro rfl; simp only [List.length_cons] at this; omega
  | @closing s t h _ =>
    have := h.length_le
    simp only [List.cons.injEq, true_and, List.mem_cons, true_or, not_true_eq_false, and_false, iff_false]
    rintro rfl; simp only [List.length_cons] at this; omega

theorem Doubled.unique {s t t' : Str} (h : Doubled s t) (h' : Doubled s t') : t = t' := by
  have h1 := h.format [] []
  have h2 := h'.format [] []
  rw [h1] at h2
  simpa [formatText] using h2

theorem Doubled.mem {s t : Str} (h : Doubled s t) {c : Char} (hc : c ∈ t) : c ∈ s := by
  induction h with
  | nil => exact hc
  | char _ _ _ ih => rcases List.mem_cons.1 hc with rfl | hc <;> simp [*]
  | opening _ ih => rcases List.mem_cons.1 hc with rfl | hc <;> simp [*]
  | closing _ ih => rcases List.mem_cons.1 hc with rfl | hc <;> simp [*]

theorem Doubled.ne_nil {s t : Str} (h : Doubled s t) (hs : s ≠ []) : t ≠ [] := by
  cases h <;> simp at hs ⊢

/-! ## Templates that are accepted -/

/-- A rest of a template that does not begin within a pair of braces. -/
def Apart (rest : Str) : Prop := rest = [] ∨ ∃ r, rest = '/' :: r

/-- A text in a template takes some of the arguments, and if it takes none then its braces are doubled. -/
theorem format_consume : ∀ (n : Nat) (s rest : Str) (args : List Str), s.length ≤ n → Apart rest →
    (formatText (s ++ rest) args).isSome = true →
    ∃ used left, args = used ++ left ∧ (formatText rest left).isSome = true ∧ (used = [] → ∃ t, Doubled s t)
  | _, [], rest, args, _, _, h => ⟨[], args, rfl, h, fun _ => ⟨[], .nil⟩⟩
  | 0, _ :: _, _, _, hn, _, _ => by simp at hn
  | n + 1, [c], rest, args, hn, ha, h => by
    by_cases h1 : c = '{'
    · subst h1
      rcases ha with rfl | ⟨r, rfl⟩ <;> simp [formatText] at h
    · by_cases h2 : c = '}'
      · subst h2
        rcases ha with rfl | ⟨r, rfl⟩ <;> simp [formatText] at h
      · have hd : Doubled [c] [c] := .char h1 h2 .nil
        rw [hd.format, Option.isSome_map] at h
        exact ⟨[], args, rfl, h, fun _ => ⟨_, hd⟩⟩
  | n + 1, c :: d :: s, rest, args, hn, ha, h => by
    simp only [List.length_cons] at hn
    by_cases h1 : c = '{'
    · subst h1
      by_cases h3 : d = '}'
      · subst h3
        cases args with
        | nil => simp [formatText] at h
        | cons a args =>
          simp only [List.cons_append, formatText, Option.isSome_map] at h
          obtain ⟨used, left, rfl, h4, -⟩ := format_consume n s rest args (by omega) ha h
          exact ⟨a :: used, left, rfl, h4, by simp⟩
      · by_cases h4 : d = '{'
        · subst h4
          simp only [List.cons_append, formatText, Option.isSome_map] at h
          obtain ⟨used, left, rfl, h5, h6⟩ := format_consume n s rest args (by omega) ha h
          exact ⟨used, left, rfl, h5, fun e => let ⟨t, ht⟩ := h6 e; ⟨_, .opening ht⟩⟩
        · exfalso
          revert h
          simp [formatText, h3, h4]
    · by_cases h2 : c = '}'
      · subst h2
        by_cases h4 : d = '}'
        · subst h4
          simp only [List.cons_append, formatText, Option.isSome_map] at h
          obtain ⟨used, left, rfl, h5, h6⟩ := format_consume n s rest args (by omega) ha h
          exact ⟨used, left, rfl, h5, fun e => let ⟨t, ht⟩ := h6 e; ⟨_, .closing ht⟩⟩
        · exfalso
          revert h
          simp [formatText, h4]
      · have hd : Doubled [c] [c] := .char h1 h2 .nil
        rw [show c :: d :: s ++ rest = [c] ++ (d :: s ++ rest) from rfl, hd.format, Option.isSome_map] at h
        obtain ⟨used, left, rfl, h5, h6⟩ := format_consume n (d :: s) rest args (by simp only [List.length_cons]; omega) ha h
        exact ⟨used, left, rfl, h5, fun e => let ⟨t, ht⟩ := h6 e; ⟨_, .char h1 h2 ht⟩⟩

/-- The segments of a template, as one text. -/
def templateOf (segs : List PathSegment) : Str := List.intercalate c!"/" (segs.map (PathSegment.inTemplate fun _ => c!"{}"))

theorem templateOf_cons (s : PathSegment) (segs : List PathSegment) :
    ∃ rest, templateOf (s :: segs) = s.inTemplate (fun _ => c!"{}") ++ rest ∧ Apart rest ∧
      ∀ args, (formatText rest args).isSome = (formatText (templateOf segs) args).isSome := by
  cases segs with
  | nil => exact ⟨[], by simp [templateOf, List.intercalate], .inl rfl, fun _ => by simp [templateOf, List.intercalate]⟩
  | cons s' segs =>
    refine ⟨'/' :: templateOf (s' :: segs), ?_, .inr ⟨_, rfl⟩, fun args => ?_⟩
    · simp only [templateOf, List.map_cons]
      rw [intercalate_cons]
    · have := formatText_plain (s := c!"/") (by decide) (by decide) (templateOf (s' :: segs)) args
      rw [show '/' :: templateOf (s' :: segs) = c!"/" ++ templateOf (s' :: segs) from rfl, this, Option.isSome_map]

theorem template_consume : ∀ (segs : List PathSegment) (args : List Str), (formatText (templateOf segs) args).isSome = true →
    (routeParams segs).length ≤ args.length ∧
      (args.length = (routeParams segs).length → ∀ s, .static s ∈ segs → ∃ t, Doubled s t)
  | [], args, _ => ⟨by simp [routeParams], by simp⟩
  | .static s :: segs, args, h => by
    obtain ⟨rest, h1, h2, h3⟩ := templateOf_cons (.static s) segs
    rw [h1] at h
    simp only [PathSegment.inTemplate] at h
    obtain ⟨used, left, rfl, h4, h5⟩ := format_consume _ s rest args (Nat.le_refl _) h2 h
    rw [h3] at h4
    obtain ⟨h6, h7⟩ := template_consume segs left h4
    rw [show routeParams (.static s :: segs) = routeParams segs from rfl, List.length_append]
    refine ⟨by omega, fun e x hx => ?_⟩
    rcases List.mem_cons.1 hx with hx | hx
    · cases hx
      exact h5 (List.length_eq_zero_iff.1 (by omega))
    · exact h7 (by omega) x hx
  | .dynamic p :: segs, args, h => by
    obtain ⟨rest, h1, h2, h3⟩ := templateOf_cons (.dynamic p) segs
    rw [h1] at h
    simp only [PathSegment.inTemplate] at h
    cases args with
    | nil => simp [formatText] at h
    | cons a args =>
      simp only [List.cons_append, List.nil_append, formatText, Option.isSome_map, h3] at h
      obtain ⟨h6, h7⟩ := template_consume segs args h
      rw [show routeParams (.dynamic p :: segs) = p :: routeParams segs from rfl]
      simp only [List.length_cons]
      refine ⟨by omega, fun e x hx => ?_⟩
      rcases List.mem_cons.1 hx with hx | hx
      · cases hx
      · exact h7 (by omega) x hx

/-! ## Links -/

theorem format_link {display : W.V → Str} {segs : List PathSegment} {caps : Caps W} {texts : List Str}
    (ht : LinkTexts display segs caps texts) :
    formatText (templateOf segs) (caps.map fun pv => display pv.2) = some (List.intercalate c!"/" texts) := by
  have slashes : ∀ (rest : Str) args, formatText ('/' :: rest) args = (formatText rest args).map ('/' :: ·) :=
    fun rest args => formatText_plain (s := c!"/") (by decide) (by decide) rest args
  have hd : ∀ x rest args, formatText (c!"{}" ++ rest) (x :: args) = (formatText rest args).map (x ++ ·) := fun _ _ _ => rfl
  unfold templateOf
  induction ht with
  | nil => rfl
  | @static segs caps texts s t hs ht ih =>
    cases ht with
    | nil =>
      have := hs.format [] []
      simpa [List.intercalate, PathSegment.inTemplate, formatText] using this
    | static _ _ =>
      simp only [List.map_cons] at ih ⊢
      rw [intercalate_cons, intercalate_cons]
      simp only [PathSegment.inTemplate] at ih ⊢
      rw [hs.format, slashes, ih]
      rfl
    | dynamic _ _ _ =>
      simp only [List.map_cons] at ih ⊢
      rw [intercalate_cons, intercalate_cons]
      simp only [PathSegment.inTemplate] at ih ⊢
      rw [hs.format, slashes, ih]
      rfl
  | @dynamic segs caps texts p v ht ih =>
    cases ht with
    | nil =>
      simp [List.intercalate, PathSegment.inTemplate, formatText]
    | static _ _ =>
      simp only [List.map_cons] at ih ⊢
      rw [intercalate_cons, intercalate_cons]
      simp only [PathSegment.inTemplate] at ih ⊢
      rw [hd, slashes, ih]
      rfl
    | dynamic _ _ _ =>
      simp only [List.map_cons] at ih ⊢
      rw [intercalate_cons, intercalate_cons]
      simp only [PathSegment.inTemplate] at ih ⊢
      rw [hd, slashes, ih]
      rfl

theorem linkTexts_caps {display : W.V → Str} {segs : List PathSegment} {caps : Caps W} {texts : List Str}
    (ht : LinkTexts display segs caps texts) : routeParams segs = caps.map Prod.fst := by
  induction ht with
  | nil => rfl
  | static _ _ ih => simpa [routeParams] using ih
  | dynamic p v _ ih =>
    rw [List.map_cons, ← ih]
    rfl

theorem linkTexts_length {display : W.V → Str} {segs : List PathSegment} {caps : Caps W} {texts : List Str}
    (ht : LinkTexts display segs caps texts) : texts.length = segs.length := by
  induction ht <;> simp_all

theorem linkTexts_mem {display : W.V → Str} {segs : List PathSegment} {caps : Caps W} {texts : List Str}
    (ht : LinkTexts display segs caps texts) {t : Str} (h : t ∈ texts) :
    (∃ s, .static s ∈ segs ∧ Doubled s t) ∨ ∃ pv ∈ caps, t = display pv.2 := by
  induction ht with
  | nil => cases h
  | static hs _ ih =>
    rcases List.mem_cons.1 h with rfl | h
    · exact .inl ⟨_, by simp, hs⟩
    · rcases ih h with ⟨s, h1, h2⟩ | h
      · exact .inl ⟨s, by simp [h1], h2⟩
      · exact .inr h
  | dynamic p v _ ih =>
    rcases List.mem_cons.1 h with rfl | h
    · exact .inr ⟨(p, v), by simp, rfl⟩
    · rcases ih h with ⟨s, h1, h2⟩ | ⟨pv, h1, h2⟩
      · exact .inl ⟨s, by simp [h1], h2⟩
      · exact .inr ⟨pv, by simp [h1], h2⟩

/-- A template of words with quotes nowhere is a plain literal. -/
theorem template_plain {segs : List PathSegment} (h : ∀ s, .static s ∈ segs → '"' ∉ s ∧ '\\' ∉ s) :
    literal (c!"/" ++ templateOf segs) = some (c!"/" ++ templateOf segs) := by
  have key : ∀ c, c = '"' ∨ c = '\\' → ∀ l : List PathSegment, (∀ s ∈ l, s ∈ segs) → c ∉ templateOf l := by
    intro c hc l
    induction l with
    | nil => intro _; simp [templateOf, List.intercalate]
    | cons s l ih =>
      intro hl
      have hs : c ∉ s.inTemplate fun _ => c!"{}" := by
        cases s with
        | static t =>
          have := h t (hl _ (by simp))
          rcases hc with rfl | rfl
          · exact this.1
          · exact this.2
        | dynamic p => rcases hc with rfl | rfl <;> simp [PathSegment.inTemplate]
      cases l with
      | nil => simpa [templateOf, List.intercalate] using hs
      | cons s' l =>
        have ih := ih fun x hx => hl x (by simp [hx])
        simp only [templateOf, List.map_cons] at ih ⊢
        rw [intercalate_cons]
        simp only [List.mem_append, List.mem_cons, not_or]
        exact ⟨hs, by rcases hc with rfl | rfl <;> decide, ih⟩
  rw [literal, if_neg]
  rintro (h | h) <;> rcases List.mem_append.1 h with h | h
  · revert h; decide
  · exact key _ (.inl rfl) segs (fun _ h => h) h
  · revert h; decide
  · exact key _ (.inr rfl) segs (fun _ h => h) h

/-- Names as values: every route has a link. -/
theorem link_names {segs : List PathSegment} (h : ∀ s, .static s ∈ segs → ∃ t, Doubled s t) : ∃ texts,
    LinkTexts (W := ⟨Str, Str, fun _ s => .ok s, fun _ => none⟩) id segs ((routeParams segs).map fun p => (p, p.name)) texts := by
  induction segs with
  | nil => exact ⟨[], .nil⟩
  | cons s segs ih =>
    obtain ⟨texts, ht⟩ := ih fun x hx => h x (by simp [hx])
    cases s with
    | static s =>
      obtain ⟨t, hs⟩ := h s (by simp)
      exact ⟨t :: texts, .static hs ht⟩
    | dynamic p =>
      rw [show routeParams (.dynamic p :: segs) = p :: routeParams segs from rfl]
      exact ⟨p.name :: texts, LinkTexts.dynamic (W := ⟨Str, Str, fun _ s => .ok s, fun _ => none⟩) p p.name ht⟩

/-- The templates are accepted exactly if braces are doubled. -/
theorem templates_iff {r : Routes} {root : FlattenedModule} (hroot : modulesRoot r = some root)
    (hq : ∀ segs query node, HasRoute r segs query node → ∀ s, .static s ∈ segs → '"' ∉ s ∧ '\\' ∉ s) :
    TemplatesOk root ↔ BracesPaired r := by
  have slash : ∀ segs args, formatText (c!"/" ++ templateOf segs) args = (formatText (templateOf segs) args).map (c!"/" ++ ·) :=
    fun segs args => formatText_plain (by decide) (by decide) _ _
  constructor
  · intro h segs query res hd hred
    have ha := (C24_actions hroot res.modules _).2 ⟨segs, query, res, hd, hred, rfl, rfl⟩
    have := (h _ _ ha).2
    simp only [FlattenedAction.template, FlattenedAction.formatArgs, renderPath_eq] at this
    rw [show List.intercalate c!"/" (segs.map (PathSegment.inTemplate fun _ => c!"{}")) = templateOf segs from rfl, slash,
      Option.isSome_map] at this
    exact (template_consume segs _ this).2 (by simp)
  · intro h mods a ha
    obtain ⟨segs, query, res, hd, hred, rfl, rfl⟩ := (C24_actions hroot _ _).1 ha
    obtain ⟨node, above, hr, _, rfl⟩ := id hd
    simp only [FlattenedAction.template, FlattenedAction.formatArgs, renderPath_eq]
    rw [show List.intercalate c!"/" (segs.map (PathSegment.inTemplate fun _ => c!"{}")) = templateOf segs from rfl,
      template_plain (hq _ _ _ hr), slash, Option.isSome_map]
    obtain ⟨texts, ht⟩ := link_names (h _ _ _ hd hred)
    have hf := format_link ht
    rw [show ((routeParams segs).map fun p => (p, p.name)).map (fun pv => id pv.2) = (routeParams segs).map Param.name by
      simp [Function.comp_def]] at hf
    refine ⟨rfl, ?_⟩
    rw [hf]; rfl

end Wayfinder
