import Verif.Model.Macros
import Verif.Spec.Macros
import Verif.Proofs.Pipeline
import Verif.Props.Names
/-!
# C51: the macros of the API and the lines of route files
-/

namespace Wayfinder
open Rust

/-- The tokens of `::a::b`. -/
def nestedToks : List Str → List Tok
  | [] => []
  | x :: xs => .op c!"::" :: .word x :: nestedToks xs

/-- The tokens of `a::b::c`. -/
def pathToks : List Str → List Tok
  | [] => []
  | x :: xs => .word x :: nestedToks xs

/-- The tokens of `name: typ`. -/
def paramToks (p : Param) : List Tok := [.word p.name, .op c!":", .word p.typ]

/-- The tokens of `, param!(a: T), param!(b: U)`. -/
def argToks : List Param → List Tok
  | [] => []
  | p :: ps => .op c!"," :: .word c!"param" :: .op c!"!" :: .op c!"(" :: paramToks p ++ .op c!")" :: argToks ps

theorem macroIdent_iff {x : Str} : macroIdent x = true ↔ IdentWord x := by
  cases x with
  | nil => simp [macroIdent, IdentWord]
  | cons c x => simp [macroIdent, IdentWord, and_assoc]

theorem macroType_iff {x : Str} : macroType x = true ↔ TypeWord x := by
  have : isName x = true ↔ IdentWord x ∧ x ∉ keywords := by
    cases x with
    | nil => simp [isName, IdentWord]
    | cons c x =>
      simp only [isName, IdentWord, Bool.and_eq_true, Bool.not_eq_true', List.contains_eq_mem, decide_eq_false_iff_not, List.all_eq_true,
        decide_eq_true_eq]
      constructor
      · rintro ⟨⟨h1, h2⟩, h3⟩
        exact ⟨⟨c, x, rfl, h1, fun h => h2 (by rw [h]; decide), h3⟩, h2⟩
      · rintro ⟨⟨_, _, h, h1, -, h3⟩, h2⟩
        cases h
        exact ⟨⟨h1, h2⟩, h3⟩
  simp [macroType, TypeWord, this]

instance (x : Str) : Decidable (IdentWord x) := decidable_of_iff _ macroIdent_iff

instance (x : Str) : Decidable (TypeWord x) := decidable_of_iff _ macroType_iff

theorem macroOk_iff {p : Param} : p.macroOk ↔ macroIdent p.name = true ∧ macroType p.typ = true := by
  rw [macroIdent_iff, macroType_iff, Param.macroOk]

theorem paramMacro_some {ts : List Tok} {p : Param} :
    paramMacro ts = some p ↔ ts = paramToks p ∧ p.macroOk := by
  constructor
  · intro h
    unfold paramMacro at h
    split at h
    · rename_i name typ
      split at h
      · rename_i hn
        cases h
        exact ⟨rfl, macroOk_iff.2 (by simpa using hn)⟩
      · cases h
    · cases h
  · rintro ⟨rfl, h⟩
    obtain ⟨h1, h2⟩ := macroOk_iff.1 h
    simp [paramMacro, paramToks, h1, h2]

/-- What does not go on as `:: ident`. -/
def Stops (ts : List Tok) : Prop := ∀ x rest, ts = .op c!"::" :: .word x :: rest → macroIdent x = false

theorem takeNested_spec (ts : List Tok) : ts = nestedToks (takeNested ts).1 ++ (takeNested ts).2 ∧
    (∀ x ∈ (takeNested ts).1, macroIdent x = true) ∧ Stops (takeNested ts).2 := by
  induction ts using takeNested.induct with
  | case1 x ts hx ih =>
    rw [takeNested, if_pos hx]
    obtain ⟨h1, h2, h3⟩ := ih
    refine ⟨?_, ?_, h3⟩
    · simp only [nestedToks, List.cons_append]
      rw [← h1]
    · intro y hy
      rcases List.mem_cons.1 hy with rfl | hy
      · exact hx
      · exact h2 y hy
  | case2 x ts hx =>
    rw [takeNested, if_neg hx]
    refine ⟨rfl, by simp, fun y rest he => ?_⟩
    injection he with _ he
    injection he with he _
    injection he with he
    rw [← he]
    simpa using hx
  | case3 ts h =>
    rw [takeNested]
    · exact ⟨rfl, by simp, fun x rest he => (h x rest he).elim⟩
    · exact h

theorem takeNested_append {xs : List Str} (hx : ∀ x ∈ xs, macroIdent x = true) {rest : List Tok} (hs : Stops rest) :
    takeNested (nestedToks xs ++ rest) = (xs, rest) := by
  induction xs with
  | nil =>
    simp only [nestedToks, List.nil_append]
    unfold takeNested
    split
    · rename_i x ts
      rw [if_neg]
      simpa using hs x ts rfl
    · rfl
  | cons x xs ih =>
    simp only [nestedToks, List.cons_append, takeNested]
    rw [if_pos (hx x (by simp)), ih fun y hy => hx y (by simp [hy])]

theorem takeParams_spec (ts : List Tok) (ps : List Param) : takeParams ts = some ps ↔
    ts = argToks ps ∧ ∀ p ∈ ps, p.macroOk := by
  induction ts using takeParams.induct generalizing ps with
  | case1 =>
    cases ps with
    | nil => simp [takeParams, argToks]
    | cons p ps => simp [takeParams, argToks]
  | case2 a b c ts ih =>
    simp only [takeParams, Option.bind_eq_bind, Option.bind_eq_some_iff, Option.pure_def, Option.some.injEq]
    constructor
    · rintro ⟨p, h1, qs, h2, rfl⟩
      obtain ⟨e1, h1'⟩ := paramMacro_some.1 h1
      obtain ⟨rfl, h2'⟩ := (ih qs).1 h2
      simp only [paramToks, List.cons.injEq, and_true] at e1
      obtain ⟨rfl, rfl, rfl⟩ := e1
      refine ⟨rfl, fun q hq => ?_⟩
      rcases List.mem_cons.1 hq with rfl | hq
      · exact h1'
      · exact h2' q hq
    · rintro ⟨e, h⟩
      cases ps with
      | nil => simp [argToks] at e
      | cons p ps =>
        simp only [argToks, paramToks, List.cons_append, List.nil_append, List.cons.injEq, true_and] at e
        obtain ⟨rfl, rfl, rfl, e⟩ := e
        exact ⟨p, paramMacro_some.2 ⟨rfl, h p (by simp)⟩, ps, (ih ps).2 ⟨e, fun q hq => h q (by simp [hq])⟩, rfl⟩
  | case3 ts h1 h2 =>
    constructor
    · intro h
      rw [takeParams] at h
      · cases h
      · exact h1
      · exact h2
    · rintro ⟨rfl, h⟩
      cases ps with
      | nil => exact absurd rfl h1
      | cons p ps => exact (h2 _ _ _ _ rfl).elim

theorem argToks_stops (ps : List Param) : Stops (argToks ps) := by
  intro x rest h
  cases ps with
  | nil => cases h
  | cons p ps => simp [argToks] at h

/-- **C51, the verb macros.** `get!(…)` compiles with the value `r` exactly if the argument is the path of `r` — behind
`->` for redirects — followed by a `param!` for each query parameter; redirects have none. -/
theorem C51_verb (m : Method) (ts : List Tok) (r : Resource) : verbMacro m ts = some r ↔
    r.method = m ∧ (∀ x ∈ r.modules ++ [r.name], IdentWord x) ∧
    ((r.isRedirect = true ∧ r.queryParameters = [] ∧ ts = .op c!"->" :: pathToks (r.modules ++ [r.name])) ∨
     (r.isRedirect = false ∧ (∀ p ∈ r.queryParameters, p.macroOk) ∧
      ts = pathToks (r.modules ++ [r.name]) ++ argToks r.queryParameters)) := by
  simp only [← macroIdent_iff]
  constructor
  · intro h
    unfold verbMacro at h
    split at h
    · rename_i root ts
      split at h
      · rename_i hroot
        split at h
        · rename_i nested he
          obtain ⟨h1, h2, _⟩ := takeNested_spec ts
          rw [he] at h1 h2
          simp only [List.append_nil] at h1
          obtain ⟨e1, e2, e3, e4⟩ := ((C40_make m (root :: nested) true []).2 r).1 h
          rw [← e1]
          refine ⟨e2, ?_, .inl ⟨e3, e4, by rw [h1]; rfl⟩⟩
          intro x hx
          rcases List.mem_cons.1 hx with rfl | hx
          · exact hroot
          · exact h2 x hx
        · cases h
      · cases h
    · rename_i root ts
      split at h
      · rename_i hroot
        simp only [Option.bind_eq_bind, Option.bind_eq_some_iff] at h
        obtain ⟨ps, h3, h⟩ := h
        obtain ⟨h1, h2, _⟩ := takeNested_spec ts
        obtain ⟨h4, h5⟩ := (takeParams_spec _ _).1 h3
        obtain ⟨e1, e2, e3, e4⟩ := ((C40_make m (root :: (takeNested ts).1) false ps).2 r).1 h
        rw [← e1]
        refine ⟨e2, ?_, .inr ⟨e3, by rw [e4]; exact h5, by rw [e4, ← h4]; simp only [pathToks, List.cons_append]; rw [← h1]⟩⟩
        intro x hx
        rcases List.mem_cons.1 hx with rfl | hx
        · exact hroot
        · exact h2 x hx
      · cases h
    · cases h
  · rintro ⟨rfl, hid, hr⟩
    obtain ⟨root, nested, he⟩ : ∃ root nested, r.modules ++ [r.name] = root :: nested := by
      cases h : r.modules ++ [r.name] with
      | nil => simp at h
      | cons a l => exact ⟨a, l, rfl⟩
    rw [he] at hid hr
    have hroot : macroIdent root = true := hid root (by simp)
    have hnest : ∀ x ∈ nested, macroIdent x = true := fun x hx => hid x (by simp [hx])
    rcases hr with ⟨h1, h2, rfl⟩ | ⟨h1, h2, rfl⟩
    · have ht := takeNested_append hnest (rest := []) (fun x rest h => by cases h)
      simp only [List.append_nil] at ht
      simp only [pathToks, verbMacro, hroot, if_true, ht]
      exact ((C40_make _ _ _ _).2 r).2 ⟨he.symm, rfl, h1, h2⟩
    · have ht := takeNested_append hnest (argToks_stops r.queryParameters)
      simp only [pathToks, List.cons_append, verbMacro, hroot, if_true, ht, (takeParams_spec _ _).2 ⟨rfl, h2⟩,
        Option.bind_eq_bind, Option.bind_some]
      exact ((C40_make _ _ _ _).2 r).2 ⟨he.symm, rfl, h1, rfl⟩

/-- **C51, the parameter macro.** `param!(…)` compiles with the value `p` exactly if the argument is `name: type`. -/
theorem C51_param (ts : List Tok) (p : Param) : paramMacro ts = some p ↔ ts = paramToks p ∧ p.macroOk :=
  paramMacro_some

theorem lexes_space {x : Str} (h : Rust.Word x) : Lexes (x ++ c!" ") [.word x] := by
  refine lexes_word (ts := [.word x]) (us := []) (st := .neutral) h ?_ rfl
  simp [run, lexStep, lexStart, isBlank, isWordChar, Char.isAlphanum, Char.isAlpha, Char.isUpper, Char.isLower, Char.isDigit]

theorem lexes_colons {x : Str} (h : Rust.Word x) : Lexes (x ++ c!"::") [.word x, .op c!"::"] := by
  refine lexes_word (ts := [.word x, .op c!"::"]) (us := []) (st := .neutral) h ?_ rfl
  simp [run, lexStep, lexStart, isBlank, isWordChar, joined, Char.isAlphanum, Char.isAlpha, Char.isUpper, Char.isLower,
    Char.isDigit]

theorem lexes_colon {x : Str} (h : Rust.Word x) : Lexes (x ++ c!": ") [.word x, .op c!":"] := by
  refine lexes_word (ts := [.word x, .op c!":"]) (us := []) (st := .neutral) h ?_ rfl
  simp [run, lexStep, lexStart, isBlank, isWordChar, joined, Char.isAlphanum, Char.isAlpha, Char.isUpper, Char.isLower,
    Char.isDigit]

/-- The end of a text is a word. -/
theorem lex_word {s x : Str} {ts : List Tok} (h : Lexes s ts) (hx : Rust.Word x) :
    lex (s ++ x) = some (ts ++ [.word x]) := by
  unfold Rust.lex
  rw [h _ hx.1, run_word hx]
  simp [flush]

theorem lex_line {s x : Str} {ts : List Tok} (h : Lexes s ts) (hx : Rust.Word x) :
    lex (s ++ (x ++ c!"\n")) = some (ts ++ [.word x]) := by
  unfold Rust.lex
  rw [h _ (by simp), run_append, run_word hx]
  simp [run, lexStep, lexStart, isBlank, isWordChar, Char.isAlphanum, Char.isAlpha, Char.isUpper, Char.isLower, Char.isDigit,
    flush]

theorem nestedToks_append (xs : List Str) (x : Str) : nestedToks (xs ++ [x]) =
    .op c!"::" :: ((xs.flatMap fun m => [Tok.word m, Tok.op c!"::"]) ++ [.word x]) := by
  induction xs with
  | nil => rfl
  | cons y xs ih => simp only [List.cons_append, nestedToks, ih, List.flatMap_cons, List.nil_append]

theorem pathToks_append (xs : List Str) (x : Str) : pathToks (xs ++ [x]) =
    (xs.flatMap fun m => [Tok.word m, Tok.op c!"::"]) ++ [.word x] := by
  cases xs with
  | nil => rfl
  | cons y xs => simp only [List.cons_append, pathToks, nestedToks_append, List.flatMap_cons, List.nil_append]

theorem lexes_indent {k : Nat} (h : k ≤ 7) : Lexes (indent k) [] := by
  rcases k with _ | _ | _ | _ | _ | _ | _ | _ | k
  case succ.succ.succ.succ.succ.succ.succ.succ => omega
  all_goals exact lexes_of (ts := []) (us := []) (st := .neutral) rfl rfl

theorem lexes_method (m : Method) : Lexes (m.display ++ c!" ") [.word m.display] :=
  lexes_space (by cases m <;> exact ⟨by decide, by decide⟩)

/-- **C51, lines.** The line of a resource without query parameters in a route file, read as Rust, is the verb and then
tokens that the macro for the verb takes if the names are identifiers; its value is the resource. -/
theorem C51_line {cfg : ParseCfg} {r : Resource} (hw : r.Written cfg) (hq : r.queryParameters = []) {k : Nat} (hk : k ≤ 7) :
    ∃ ts, lex (r.stringify k) = some (.word r.method.display :: ts) ∧
      (verbMacro r.method ts = some r ↔ ∀ x ∈ r.modules ++ [r.name], IdentWord x) := by
  refine ⟨(if r.isRedirect then [.op c!"->"] else []) ++ pathToks (r.modules ++ [r.name]), ?_, ?_⟩
  · have h1 : Lexes (indent k ++ (r.method.display ++ c!" ")) [.word r.method.display] :=
      (lexes_indent hk).append (lexes_method _)
    have h2 : Lexes (if r.isRedirect then c!"-> " else c!"") (if r.isRedirect then [.op c!"->"] else []) := by
      split
      · exact lexes_of (ts := [.op c!"->"]) (us := []) (st := .neutral) rfl rfl
      · exact .nil
    have h3 : Lexes (r.modules.map fun m => m ++ c!"::").flatten (r.modules.flatMap fun m => [Tok.word m, Tok.op c!"::"]) :=
      Lexes.flatten fun m hm => lexes_colons ⟨(hw.2.1 m hm).1, (hw.2.1 m hm).chars⟩
    have h := lex_line ((h1.append h2).append h3) ⟨hw.1.1, hw.1.chars⟩
    rw [pathToks_append]
    have e : r.stringify k = indent k ++ (r.method.display ++ c!" ") ++ (if r.isRedirect then c!"-> " else c!"") ++
        (r.modules.map fun m => m ++ c!"::").flatten ++ (r.name ++ c!"\n") := by
      unfold Resource.stringify
      rw [hq]
      cases r.isRedirect <;> simp
    rw [e, h]
    simp
  · rw [C51_verb]
    cases hr : r.isRedirect <;> simp [hq, argToks]

/-- **C51, parameters.** The text of a parameter in a route file, read as Rust, is what `param!` takes; the value is the
parameter. -/
theorem C51_parameter {cfg : ParseCfg} {p : Param} (hw : p.Written cfg) :
    ∃ ts, lex p.display = some ts ∧ (paramMacro ts = some p ↔ p.macroOk) := by
  refine ⟨paramToks p, ?_, ?_⟩
  · have := lex_word (lexes_colon ⟨hw.1.1, hw.1.chars⟩) (x := p.typ) ⟨hw.2.1, hw.2.chars⟩
    unfold Param.display
    rw [this]
    rfl
  · rw [C51_param]
    simp

/-- **C51, the limits of the macros.** There are lines in route files whose resource no call of a macro gives: redirects with
query parameters, and names like `404`. -/
theorem C51_limits :
    (∀ m ts r, r.isRedirect = true → r.queryParameters ≠ [] → verbMacro m ts ≠ some r) ∧
    (∀ m ts r, r.name = c!"404" → verbMacro m ts ≠ some r) := by
  constructor
  · intro m ts r h1 h2 h
    rcases ((C51_verb m ts r).1 h).2.2 with ⟨_, h3, _⟩ | ⟨h3, _⟩
    · exact h2 h3
    · rw [h1] at h3; cases h3
  · intro m ts r h1 h
    have := ((C51_verb m ts r).1 h).2.1 r.name (by simp)
    rw [h1] at this
    revert this
    decide

/-! ### A concrete case -/

namespace Demo

/-- `get!(People::Search, param!(q: String))`. -/
example : verbMacro .get (toks c!"People::Search, param!(q: String)") =
    some ⟨.get, [c!"People"], c!"Search", false, [⟨c!"q", c!"String"⟩]⟩ := by decide +kernel

/-- `post!(-> People::Show)`. -/
example : verbMacro .post (toks c!"-> People::Show") = some ⟨.post, [c!"People"], c!"Show", true, []⟩ := by decide +kernel

/-- `get!(-> Show, param!(q: String))` does not compile. -/
example : verbMacro .get (toks c!"-> Show, param!(q: String)") = none := by decide +kernel

/-- The line `    GET -> People::Show`. -/
example : (⟨.get, [c!"People"], c!"Show", true, []⟩ : Resource).Written ⟨fun _ => false, false, true⟩ ∧
    ∀ x ∈ [c!"People", c!"Show"], IdentWord x := by
  constructor
  · refine ⟨⟨by decide, by simp [WordChar]⟩, ?_, by simp⟩
    simp only [List.mem_singleton, forall_eq]
    exact ⟨by decide, by simp [WordChar]⟩
  · decide

end Demo

end Wayfinder
