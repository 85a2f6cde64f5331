import Verif.Spec.Same
import Verif.Props.Cli
/-!
# Equality and texts of results
-/

namespace Wayfinder
open Rust

variable {W : World}

/-- A value of the outermost enum `Route`: its struct and its values. -/
structure Held (W : World) (m : Mod) (v : RouteVal W) (s : Struct) (vals : List (Str × W.V)) : Prop where
  found : m.inside v.modules v.name = some s
  name : s.name = v.name
  params : v.params = vals.map fun x => (x.1, .user x.2)
  nodup : (vals.map Prod.fst).Nodup
  fields : ∀ x, x ∈ vals.map Prod.fst ↔ ∃ f ∈ s.fields, f.optional = false ∧ f.name = x
  typed : ∀ f ∈ s.fields, f.optional = false → ∀ a, (f.name, a) ∈ vals → ∃ t, W.parse f.typ t = .ok a
  names : ∀ w ∈ v.modules ++ [v.name], ∀ c ∈ w, isWordChar c = true

theorem Held.user {m : Mod} {v : RouteVal W} {s : Struct} {vals : List (Str × W.V)} (h : Held W m v s vals) :
    userFields v.params = some vals := by
  rw [h.params]; exact userFields_eq vals

theorem Held.mem {m : Mod} {v : RouteVal W} {s : Struct} {vals : List (Str × W.V)} (h : Held W m v s vals) (x : Str) (a : W.V) :
    (x, Val.user a) ∈ v.params ↔ (x, a) ∈ vals := by
  rw [h.params]; simp

theorem Held.has {m : Mod} {v : RouteVal W} {s : Struct} {vals : List (Str × W.V)} (h : Held W m v s vals) {f : Field}
    (hf : f ∈ s.fields) (ho : f.optional = false) : ∃ a, (f.name, a) ∈ vals ∧ lookupVar f.name vals = some a := by
  obtain ⟨⟨x, a⟩, h1, h2⟩ := List.mem_map.1 ((h.fields f.name).2 ⟨f, hf, ho, rfl⟩)
  simp only at h2
  subst h2
  exact ⟨a, h1, lookupVar_mem h.nodup h1⟩

/-- Two values of the same struct are the same if their fields are. -/
theorem sameValue_iff {m : Mod} {v v' : RouteVal W} {s : Struct} {vals vals' : List (Str × W.V)} (h : Held W m v s vals)
    (h' : Held W m v' s vals') (hm : v.modules = v'.modules) (hx : v.name = v'.name) (R : W.V → W.V → Prop) :
    SameValue R v v' ↔ ∀ f ∈ s.fields, f.optional = false → ∀ a b, lookupVar f.name vals = some a → lookupVar f.name vals' = some b →
      R a b := by
  constructor
  · intro hs f hf ho a b ha hb
    obtain ⟨a', h1, h2⟩ := h.has hf ho
    rw [ha] at h2; cases h2
    obtain ⟨b', h3, h4⟩ := hs.there _ _ ((h.mem _ _).2 h1)
    rw [lookupVar_mem h'.nodup ((h'.mem _ _).1 h3)] at hb
    cases hb
    exact h4
  · intro hall
    refine ⟨hm, hx, ?_, ?_⟩
    · intro x a hxa
      rw [h.mem] at hxa
      obtain ⟨f, h1, h2, rfl⟩ := (h.fields x).1 (List.mem_map.2 ⟨_, hxa, rfl⟩)
      obtain ⟨b, h3, h4⟩ := h'.has h1 h2
      exact ⟨b, (h'.mem _ _).2 h3, hall f h1 h2 _ _ (lookupVar_mem h.nodup hxa) h4⟩
    · intro x b hxb
      rw [h'.mem] at hxb
      obtain ⟨f, h1, h2, rfl⟩ := (h'.fields x).1 (List.mem_map.2 ⟨_, hxb, rfl⟩)
      obtain ⟨a, h3, h4⟩ := h.has h1 h2
      exact ⟨a, (h.mem _ _).2 h3, hall f h1 h2 _ _ h4 (lookupVar_mem h'.nodup hxb)⟩

theorem eqFields_some {V : Type} (eq : V → V → Bool) {vals vals' : List (Str × V)} : ∀ fs : List Field,
    (∀ f ∈ fs, f.optional = false → ∃ a b, lookupVar f.name vals = some a ∧ lookupVar f.name vals' = some b) →
    ∃ x, eqFields eq vals vals' fs = some x ∧ (x = true ↔ ∀ f ∈ fs, f.optional = false → ∀ a b, lookupVar f.name vals = some a →
      lookupVar f.name vals' = some b → eq a b = true)
  | [], _ => ⟨true, rfl, by simp⟩
  | f :: fs, h => by
    obtain ⟨x, h1, h2⟩ := eqFields_some eq fs fun g hg => h g (by simp [hg])
    cases ho : f.optional with
    | true =>
      refine ⟨x, by simp [eqFields, eqField, ho, h1], ?_⟩
      rw [h2]
      simp [ho]
    | false =>
      obtain ⟨a, b, ha, hb⟩ := h f (by simp) ho
      refine ⟨eq a b && x, by simp [eqFields, eqField, ho, h1, ha, hb], ?_⟩
      rw [Bool.and_eq_true, h2]
      simp [ho, ha, hb]

theorem eqRoute_iff {m : Mod} {v v' : RouteVal W} {s s' : Struct} {vals vals' : List (Str × W.V)} (h : Held W m v s vals)
    (h' : Held W m v' s' vals') (eq : W.V → W.V → Bool) :
    ∃ x, eqRoute eq m v v' = some x ∧ (x = true ↔ SameValue (fun a b => eq a b = true) v v') := by
  by_cases hs : v.modules = v'.modules ∧ v.name = v'.name
  · obtain rfl : s = s' := by
      have := h'.found
      rw [← hs.1, ← hs.2, h.found] at this
      exact Option.some.inj this
    obtain ⟨x, h1, h2⟩ := eqFields_some eq (vals := vals) (vals' := vals') s.fields fun f hf ho => by
      obtain ⟨a, -, ha⟩ := h.has hf ho
      obtain ⟨b, -, hb⟩ := h'.has hf ho
      exact ⟨a, b, ha, hb⟩
    refine ⟨x, ?_, h2.trans (sameValue_iff h h' hs.1 hs.2 _).symm⟩
    simp only [eqRoute, if_pos hs, h.found, h.user, h'.user, Option.bind_eq_bind, Option.bind_some, h1]
  · refine ⟨false, by simp only [eqRoute, if_neg hs], ?_⟩
    constructor
    · intro h; cases h
    · intro h; exact absurd ⟨h.modules, h.name⟩ hs

/-! ## Texts -/

/-- Words followed by other characters. -/
theorem word_cancel {d d' : Char} (hd : isWordChar d = false) (hd' : isWordChar d' = false) : ∀ {a a' s s' : Str},
    (∀ c ∈ a, isWordChar c = true) → (∀ c ∈ a', isWordChar c = true) → a ++ d :: s = a' ++ d' :: s' → a = a' ∧ d = d' ∧ s = s'
  | [], [], s, s', _, _, h => by
    simp only [List.nil_append, List.cons.injEq] at h
    exact ⟨rfl, h⟩
  | [], c :: a', s, s', _, h2, h => by
    simp only [List.nil_append, List.cons_append, List.cons.injEq] at h
    have := h2 c (by simp)
    rw [← h.1, hd] at this
    cases this
  | c :: a, [], s, s', h1, _, h => by
    simp only [List.nil_append, List.cons_append, List.cons.injEq] at h
    have := h1 c (by simp)
    rw [h.1, hd'] at this
    cases this
  | c :: a, c' :: a', s, s', h1, h2, h => by
    simp only [List.cons_append, List.cons.injEq] at h
    obtain ⟨h3, h4⟩ := word_cancel hd hd' (fun x hx => h1 x (by simp [hx])) (fun x hx => h2 x (by simp [hx])) h.2
    exact ⟨by rw [h.1, h3], h4⟩

/-- The text of a value or of a word cannot be continued: it ends with a blank or a bracket. -/
def TextStops (s : Str) : Prop := ∃ d r, s = d :: r ∧ (d = ' ' ∨ d = ')')

theorem stop_word {d : Char} (h : d = ' ' ∨ d = ')') : isWordChar d = false := by
  rcases h with rfl | rfl <;> decide

theorem variants_cancel {w w' i i' t : Str} (hw : ∀ c ∈ w, isWordChar c = true) (hw' : ∀ c ∈ w', isWordChar c = true) :
    ∀ {vs vs' : List Str} {k k' : Nat}, (∀ x ∈ vs, ∀ c ∈ x, isWordChar c = true) → (∀ x ∈ vs', ∀ c ∈ x, isWordChar c = true) →
      TextStops (i ++ List.replicate (k + vs.length) ')' ++ t) → TextStops (i' ++ List.replicate (k' + vs'.length) ')' ++ t) →
      debugVariants vs (w ++ i) ++ List.replicate k ')' ++ t = debugVariants vs' (w' ++ i') ++ List.replicate k' ')' ++ t →
      vs = vs' ∧ w ++ i ++ List.replicate (k + vs.length) ')' ++ t = w' ++ i' ++ List.replicate (k' + vs'.length) ')' ++ t
  | [], [], k, k', _, _, _, _, h => by
    simp only [debugVariants] at h
    exact ⟨rfl, by simpa using h⟩
  | [], v :: vs', k, k', _, h2, hs, _, h => by
    obtain ⟨d, r, h3, h4⟩ := hs
    simp only [List.length_nil, Nat.add_zero] at h3
    simp only [debugVariants, List.append_assoc] at h h3
    rw [h3] at h
    have := (word_cancel (stop_word h4) (d' := '(') (by decide) hw (h2 v (by simp)) h).2.1
    rcases h4 with rfl | rfl <;> exact absurd this (by decide)
  | v :: vs, [], k, k', h1, _, _, hs, h => by
    obtain ⟨d, r, h3, h4⟩ := hs
    simp only [List.length_nil, Nat.add_zero] at h3
    simp only [debugVariants, List.append_assoc] at h h3
    rw [h3] at h
    have := (word_cancel (d := '(') (by decide) (stop_word h4) (h1 v (by simp)) hw' h).2.1
    rcases h4 with rfl | rfl <;> exact absurd this (by decide)
  | v :: vs, v' :: vs', k, k', h1, h2, hs, hs', h => by
    simp only [debugVariants, List.append_assoc] at h
    obtain ⟨rfl, -, h3⟩ := word_cancel (d := '(') (d' := '(') (by decide) (by decide) (h1 v (by simp)) (h2 v' (by simp)) h
    have e1 : ∀ (k : Nat), c!")" ++ (List.replicate k ')' ++ t) = List.replicate (k + 1) ')' ++ t := fun k => by
      rw [List.replicate_succ]; rfl
    rw [e1, e1, ← List.append_assoc, ← List.append_assoc] at h3
    have e2 : k + (v :: vs).length = (k + 1) + vs.length := by simp only [List.length_cons]; omega
    have e3 : k' + (v :: vs').length = (k' + 1) + vs'.length := by simp only [List.length_cons]; omega
    rw [e2] at hs
    rw [e3] at hs'
    rw [e2, e3]
    obtain ⟨rfl, h4⟩ := variants_cancel hw hw' (fun x hx => h1 x (by simp [hx])) (fun x hx => h2 x (by simp [hx])) hs hs' h3
    exact ⟨rfl, h4⟩

/-- The text after the fields: more fields or the end of the struct. -/
theorem intercalate_ends (x : Str) (xs : List Str) : ∃ s, (s.head? = some ',' ∨ s.head? = some ' ') ∧
    List.intercalate c!", " (x :: xs) ++ c!" }" = x ++ s ∧ s = (if xs = [] then c!" }" else c!", " ++ (List.intercalate c!", " xs ++ c!" }")) := by
  cases xs with
  | nil => exact ⟨_, by simp, by simp [List.intercalate], rfl⟩
  | cons y ys => exact ⟨_, by simp, by simp [List.intercalate], rfl⟩

theorem debugFields_cons {V : Type} (debug : V → Str) (vals : List (Str × V)) (f : Field) (fs : List Field) :
    debugFields debug vals (f :: fs) = (if f.optional then some c!"None" else (lookupVar f.name vals).map debug).bind fun text =>
      (debugFields debug vals fs).bind fun rest => some ((f.name ++ c!": " ++ text) :: rest) := by
  cases h : f.optional <;> simp [debugFields, h]

theorem fields_cancel {pr : Printer W} (hd : pr.Delimits) {vals vals' : List (Str × W.V)} : ∀ {fs : List Field} {ts ts' : List Str},
    (∀ f ∈ fs, f.optional = false → ∀ a, lookupVar f.name vals = some a → ∃ t, W.parse f.typ t = .ok a) →
    (∀ f ∈ fs, f.optional = false → ∀ a, lookupVar f.name vals' = some a → ∃ t, W.parse f.typ t = .ok a) →
    debugFields pr.debug vals fs = some ts → debugFields pr.debug vals' fs = some ts' →
    List.intercalate c!", " ts ++ c!" }" = List.intercalate c!", " ts' ++ c!" }" →
    ∀ f ∈ fs, f.optional = false → lookupVar f.name vals = lookupVar f.name vals'
  | [], _, _, _, _, _, _, _ => by simp
  | f :: fs, ts, ts', h1, h2, g1, g2, h => by
    rw [debugFields_cons] at g1 g2
    simp only [Option.bind_eq_some_iff] at g1 g2
    obtain ⟨x, x1, rest, r1, g1⟩ := g1
    obtain ⟨x', x2, rest', r2, g2⟩ := g2
    cases g1
    cases g2
    obtain ⟨s, s1, s2, s3⟩ := intercalate_ends (f.name ++ c!": " ++ x) rest
    obtain ⟨s', t1, t2, t3⟩ := intercalate_ends (f.name ++ c!": " ++ x') rest'
    rw [s2, t2] at h
    simp only [List.append_assoc, List.append_cancel_left_eq] at h
    have key : x = x' ∧ (f.optional = false → lookupVar f.name vals = lookupVar f.name vals') := by
      cases ho : f.optional with
      | true =>
        simp only [ho, if_true, Option.some.injEq] at x1 x2
        exact ⟨by rw [← x1, ← x2], by simp⟩
      | false =>
        simp only [ho, Bool.false_eq_true, if_false, Option.map_eq_some_iff] at x1 x2
        obtain ⟨a, a1, rfl⟩ := x1
        obtain ⟨b, b1, rfl⟩ := x2
        obtain ⟨t, ht⟩ := h1 f (by simp) ho a a1
        obtain ⟨t', ht'⟩ := h2 f (by simp) ho b b1
        obtain rfl := hd _ _ _ _ _ _ _ ht ht' s1 t1 h
        exact ⟨rfl, fun _ => by rw [a1, b1]⟩
    obtain ⟨rfl, hkey⟩ := key
    have hs : s = s' := List.append_cancel_left h
    intro g hg
    rcases List.mem_cons.1 hg with rfl | hg
    · exact hkey
    · have hne : ∀ {vals : List (Str × W.V)} {rest}, debugFields pr.debug vals fs = some rest → rest ≠ [] := by
        intro vals rest hr
        obtain ⟨f0, fs0, rfl⟩ := List.exists_cons_of_ne_nil (List.ne_nil_of_mem hg)
        rw [debugFields_cons] at hr
        simp only [Option.bind_eq_some_iff] at hr
        obtain ⟨_, _, _, _, hr⟩ := hr
        cases hr
        simp
      rw [s3, t3, if_neg (hne r1), if_neg (hne r2)] at hs
      exact fields_cancel hd (fun f hf => h1 f (by simp [hf])) (fun f hf => h2 f (by simp [hf])) r1 r2 (List.append_cancel_left hs) g hg

theorem debugFields_some {V : Type} (debug : V → Str) {vals : List (Str × V)} : ∀ fs : List Field,
    (∀ f ∈ fs, f.optional = false → ∃ a, lookupVar f.name vals = some a) → ∃ ts, debugFields debug vals fs = some ts
  | [], _ => ⟨[], rfl⟩
  | f :: fs, h => by
    obtain ⟨ts, h1⟩ := debugFields_some debug fs fun g hg => h g (by simp [hg])
    cases ho : f.optional with
    | true => exact ⟨_, by simp only [debugFields, ho, h1]; rfl⟩
    | false =>
      obtain ⟨a, ha⟩ := h f (by simp) ho
      exact ⟨_, by simp only [debugFields, ho, h1, ha]; rfl⟩

theorem debugFields_congr {V : Type} (debug : V → Str) {vals vals' : List (Str × V)} : ∀ fs : List Field,
    (∀ f ∈ fs, f.optional = false → lookupVar f.name vals = lookupVar f.name vals') →
      debugFields debug vals fs = debugFields debug vals' fs
  | [], _ => rfl
  | f :: fs, h => by
    rw [debugFields, debugFields, debugFields_congr debug fs fun g hg => h g (by simp [hg])]
    cases ho : f.optional with
    | true => simp
    | false => rw [h f (by simp) ho]

/-- The text of a struct begins with its name. -/
theorem debugStruct_some {m : Mod} {v : RouteVal W} {s : Struct} {vals : List (Str × W.V)} (h : Held W m v s vals) (debug : W.V → Str) :
    ∃ i, debugStruct debug s vals = some (v.name ++ i) ∧ (i = [] ∨ ∃ r, i = ' ' :: r) := by
  unfold debugStruct
  cases hf : s.fields.isEmpty with
  | true => exact ⟨[], by simp [h.name], .inl rfl⟩
  | false =>
    obtain ⟨ts, ht⟩ := debugFields_some debug (vals := vals) s.fields fun f hf ho => by
      obtain ⟨a, -, ha⟩ := h.has hf ho
      exact ⟨a, ha⟩
    refine ⟨c!" { " ++ List.intercalate c!", " ts ++ c!" }", ?_, .inr ⟨c!"{ " ++ List.intercalate c!", " ts ++ c!" }", by simp⟩⟩
    simp [ht, h.name]

theorem debugRoute_some {m : Mod} {v : RouteVal W} {s : Struct} {vals : List (Str × W.V)} (h : Held W m v s vals) (debug : W.V → Str) :
    ∃ i, debugStruct debug s vals = some (v.name ++ i) ∧ (i = [] ∨ ∃ r, i = ' ' :: r) ∧
      debugRoute debug m v = some (debugVariants (v.modules ++ [v.name]) (v.name ++ i)) := by
  obtain ⟨i, h1, h2⟩ := debugStruct_some h debug
  refine ⟨i, h1, h2, ?_⟩
  simp only [debugRoute, h.found, h.user, Option.bind_eq_bind, Option.bind_some, h1]
  rfl

theorem stops_of {i t : Str} (h : i = [] ∨ ∃ r, i = ' ' :: r) (k : Nat) : TextStops (i ++ List.replicate (k + 1) ')' ++ t) := by
  rcases h with rfl | ⟨r, rfl⟩
  · exact ⟨')', List.replicate k ')' ++ t, by simp [List.replicate_succ], .inr rfl⟩
  · exact ⟨' ', _, by simp; rfl, .inl rfl⟩

theorem debugRoute_inj {pr : Printer W} (hd : pr.Delimits) {m : Mod} {v v' : RouteVal W} {s s' : Struct} {vals vals' : List (Str × W.V)}
    (h : Held W m v s vals) (h' : Held W m v' s' vals') :
    debugRoute pr.debug m v = debugRoute pr.debug m v' ↔ SameValue (· = ·) v v' := by
  constructor
  · intro he
    obtain ⟨i, h1, h2, h3⟩ := debugRoute_some h pr.debug
    obtain ⟨i', h1', h2', h3'⟩ := debugRoute_some h' pr.debug
    rw [h3, h3', Option.some.injEq] at he
    obtain ⟨g1, g2⟩ := variants_cancel (t := []) (k := 0) (k' := 0) (h.names v.name (by simp)) (h'.names v'.name (by simp))
      h.names h'.names (by simpa using stops_of (t := []) h2 (v.modules.length)) (by simpa using stops_of (t := []) h2' (v'.modules.length))
      (by simpa using he)
    rw [g1, List.append_cancel_right_eq, List.append_cancel_right_eq] at g2
    obtain ⟨hm, hx⟩ := List.append_inj' g1 rfl
    simp only [List.cons.injEq, and_true] at hx
    obtain rfl : s = s' := by
      have := h'.found
      rw [← hm, ← hx, h.found] at this
      exact Option.some.inj this
    rw [sameValue_iff h h' hm hx]
    intro f hf ho a b ha hb
    rw [g2, ← h1'] at h1
    have hne : s.fields.isEmpty = false := by
      cases hs : s.fields with
      | nil => rw [hs] at hf; cases hf
      | cons => rfl
    obtain ⟨ts, ht⟩ := debugFields_some pr.debug (vals := vals) s.fields fun f hf ho => by
      obtain ⟨a, -, ha⟩ := h.has hf ho
      exact ⟨a, ha⟩
    obtain ⟨ts', ht'⟩ := debugFields_some pr.debug (vals := vals') s.fields fun f hf ho => by
      obtain ⟨a, -, ha⟩ := h'.has hf ho
      exact ⟨a, ha⟩
    simp only [debugStruct, hne, Bool.false_eq_true, if_false, ht, ht', Option.map_some, Option.some.injEq, List.append_assoc,
      List.append_cancel_left_eq] at h1
    have := fields_cancel hd (fun f hf ho a ha => by
        obtain ⟨a', h3, h4⟩ := h.has hf ho
        rw [ha] at h4; cases h4
        exact h.typed f hf ho a h3) (fun f hf ho a ha => by
        obtain ⟨a', h3, h4⟩ := h'.has hf ho
        rw [ha] at h4; cases h4
        exact h'.typed f hf ho a h3) ht ht' h1 f hf ho
    rw [ha, hb] at this
    exact Option.some.inj this
  · intro hs
    obtain rfl : s = s' := by
      have := h'.found
      rw [← hs.modules, ← hs.name, h.found] at this
      exact Option.some.inj this
    have hall := (sameValue_iff h h' hs.modules hs.name _).1 hs
    have hcong := debugFields_congr pr.debug (vals := vals) (vals' := vals') s.fields fun f hf ho => by
      obtain ⟨a, -, ha⟩ := h.has hf ho
      obtain ⟨b, -, hb⟩ := h'.has hf ho
      rw [ha, hb, hall f hf ho a b ha hb]
    simp only [debugRoute, h.found, h'.found, h.user, h'.user, Option.bind_eq_bind, Option.bind_some, debugStruct, hcong, hs.modules,
      hs.name]

/-! ## Results of `match_route` are such values -/

theorem Arrives.values {r node : Routes} {segs : List PathSegment} {above : List Param} {caps : Caps W}
    {pieces rest : List Bytes} (h : Arrives W r segs above caps pieces node rest) : ∀ pv ∈ caps, ∃ t, W.parse pv.1.typ t = .ok pv.2 := by
  induction h with
  | here => simp
  | static _ _ _ ih => exact ih
  | dynamic _ _ hp _ ih =>
    intro pv hpv
    rcases List.mem_cons.1 hpv with rfl | hpv
    · exact ⟨_, hp⟩
    · exact ih pv hpv

theorem held_exists {c : RouteConfig} (hw : Words c.routes) (hn : ClearNames c.routes) (hf : RedirectsFit c.routes) {τ : Typing}
    (ht : Typed c.routes τ) {root : FlattenedModule} (hr : modulesRoot c.routes = some root) (hg : ModGood root)
    {segs' : List PathSegment} {above : List Param} {caps : Caps W} {pieces rest : List Bytes} {node : Routes} {res : Resource}
    (h : Arrives W (c.routes.retype τ) segs' above caps pieces node rest) (hres : res ∈ node.resources) :
    ∃ s vals, Held W (modOf root) (RouteVal.inRust (matchOf res caps (above ++ node.queryParameters))) s vals := by
  obtain ⟨segs, he, rfl⟩ := emitted_retype (τ := τ) ⟨node, above, h.live, hres, rfl⟩
  have hnames : (caps.map fun pv => (pv.1.name, pv.2)).map Prod.fst = (routeParams segs).map Param.name := by
    rw [← routeParams_retype (τ := τ) segs [], h.caps]
    simp [Function.comp_def]
  have key : ∀ {segs2 query2 res2}, Declares c.routes segs2 query2 res2 → res2.isRedirect = false →
      SameName res2.modules res2.name res.modules res.name →
      ((routeParams segs).map Param.name).Perm ((routeParams segs2).map Param.name) →
      ∃ s vals, Held W (modOf root) (RouteVal.inRust (matchOf res caps (above ++ node.queryParameters))) s vals := by
    intro segs2 query2 res2 hd hred hsame hperm
    have hfn := hn.fields (mods := res2.modules) (x := res2.name) ⟨segs2, query2, res2, hd, hred, rfl, rfl, rfl, rfl⟩
    have hnd : ((routeParams segs2).map Param.name).Nodup := by
      simp only [List.map_append] at hfn
      exact (List.nodup_append.1 hfn).1
    have ha := (C24_actions hr res2.modules _).2 ⟨segs2, query2, res2, hd, hred, rfl, rfl⟩
    obtain ⟨h1, -⟩ := inside_found _ _ _ hg ha
    refine ⟨structOf ⟨res2.name, res2.method, segs2, routeParams segs2, query2 ++ res2.queryParameters⟩, caps.map fun pv => (pv.1.name, pv.2), ?_, ?_, ?_, ?_, ?_, ?_, ?_⟩
    · simp only [RouteVal.inRust, matchOf, ← hsame.2.1, ← hsame.2.2]
      exact h1
    · simp only [structOf, RouteVal.inRust, matchOf, ← hsame.2.2]
    · simp [RouteVal.inRust, matchOf]
    · rw [hnames]; exact hperm.nodup_iff.2 hnd
    · intro x
      rw [hnames, hperm.mem_iff]
      simp only [structOf, List.mem_append, List.mem_map]
      constructor
      · rintro ⟨p, hp, rfl⟩
        exact ⟨_, .inl ⟨p, hp, rfl⟩, rfl, rfl⟩
      · rintro ⟨f, ⟨p, hp, rfl⟩ | ⟨p, hp, rfl⟩, h3, h4⟩
        · exact ⟨p, hp, h4⟩
        · cases h3
    · intro f hf ho a ha
      simp only [structOf, List.mem_append, List.mem_map] at hf
      obtain ⟨p, hp, rfl⟩ : ∃ p ∈ routeParams segs2, (⟨p.name, false, p.typ⟩ : Field) = f := by
        rcases hf with hf | ⟨p, hp, rfl⟩
        · exact hf
        · cases ho
      obtain ⟨⟨q, a'⟩, hq, h3⟩ := List.mem_map.1 ha
      simp only [Prod.mk.injEq] at h3
      obtain ⟨h3, rfl⟩ := h3
      obtain ⟨t, h4⟩ := h.values _ hq
      have h5 : q ∈ routeParams (retypeSegs τ [] segs) := by rw [h.caps]; exact List.mem_map.2 ⟨_, hq, rfl⟩
      have h6 := ht _ _ _ he q h5 p.typ ⟨res2.modules, res2.name, _, _, ⟨segs2, query2, res2, hd, hred, rfl, rfl, rfl, rfl⟩, hsame, by
        rw [h3]; exact hp⟩
      exact ⟨t, by rw [← h6]; exact h4⟩
    · obtain ⟨node2, above2, hroute, hmem, -⟩ := hd
      obtain ⟨n1, n2, -⟩ := hw.resources hroute res2 hmem
      intro w hw'
      simp only [RouteVal.inRust, matchOf, ← hsame.2.1, ← hsame.2.2, List.mem_append, List.mem_map, List.mem_singleton] at hw'
      rcases hw' with ⟨x, hx, rfl⟩ | rfl
      · exact (Rust.capsIn_name.1 (n1 x hx).2).1
      · exact (Rust.capsIn_name.1 n2).1
  cases hi : res.isRedirect with
  | false => exact key (emitted_declares he) hi ⟨rfl, rfl, rfl⟩ (.refl _)
  | true =>
    obtain ⟨mods, x, params, query, ⟨segs2, above2, res2, hd, hred, rfl, rfl, rfl, rfl⟩, hsame, h1, -⟩ := hf _ _ _ he hi
    exact key hd hred hsame h1

end Wayfinder
