import Verif.Proofs.Read
import Verif.Spec.Words
/-!
# Tokens of the emitted declarations, and reading them
-/

namespace Wayfinder.Rust

/-! ## What is read -/

/-- The struct of an action. -/
def structOf (a : FlattenedAction) : Struct where
  name := toCapsCase a.name
  fields := a.routeParameters.map (fun p => ⟨p.name, false, p.typ⟩) ++ a.queryParameters.map fun p => ⟨p.name, true, p.typ⟩
  bound := a.bound
  template := a.template
  args := a.formatArgs

/-- The variants of the enum of a module. -/
def variantsOf (actions : List FlattenedAction) (modules : List FlattenedModule) : List (Str × List Str) :=
  actions.map (fun a => (toCapsCase a.name, [toCapsCase a.name])) ++
    modules.map fun m => (toCapsCase m.name, [toSnakeCase m.name, c!"Route"])

/-- The variants handled by `Route::to_path`. -/
def handledOf (actions : List FlattenedAction) (modules : List FlattenedModule) : List Str :=
  actions.map (fun a => toCapsCase a.name) ++ modules.map fun m => toCapsCase m.name

mutual
/-- The module that is declared. -/
def modOf : FlattenedModule → Mod
  | .mk _ actions modules => .mk (actions.map structOf) (modsOf modules) (variantsOf actions modules) (handledOf actions modules)
/-- The same for submodules. -/
def modsOf : List FlattenedModule → List (Str × Mod)
  | [] => []
  | m :: ms => (toSnakeCase m.name, modOf m) :: modsOf ms
end

/-! ## Names -/

/-- The names of an action; its path is written in a comment only. -/
def ActionNamed (N : Str → Prop) (a : FlattenedAction) : Prop :=
  CapsIn N (toCapsCase a.name) ∧ (∀ s ∈ a.path, SegNamed Word s) ∧ (∀ p ∈ a.routeParameters, ParamNamed N p) ∧
  ∀ p ∈ a.queryParameters, ParamNamed N p

mutual
/-- The names in a module; its own name is not among them. -/
def ModNamed (N : Str → Prop) : FlattenedModule → Prop
  | .mk _ actions modules => (∀ a ∈ actions, ActionNamed N a) ∧ ModsNamed N modules
/-- The names in submodules. -/
def ModsNamed (N : Str → Prop) : List FlattenedModule → Prop
  | [] => True
  | m :: ms => N (toSnakeCase m.name) ∧ CapsIn N (toCapsCase m.name) ∧ ModNamed N m ∧ ModsNamed N ms
end

/-! ## Tokens -/

/-- Tokens of the declaration of a field. -/
def fieldToks (f : Field) : List Tok :=
  toks c!"pub" ++ .word f.name :: toks c!":" ++
    (if f.optional then .word c!"Option" :: .op ['<'] :: .word f.typ :: [.op ['>'], .op [',']] else [.word f.typ, .op [',']])

/-- Tokens of a struct and its `to_path`, after `pub struct`. -/
def structToks (s : Struct) : List Tok :=
  wd s.name ++ (if s.fields = [] then toks c!";" else toks c!"{" ++ s.fields.flatMap fieldToks ++ toks c!"}") ++
  toks c!"impl" ++ wd s.name ++ toks c!"{ pub fn to_path(&self) -> String {" ++
  (if s.bound = [] then [] else toks c!"let" ++ wd s.name ++ toks c!"{" ++
    (s.bound.flatMap fun x => toks c!"ref" ++ .word x :: toks c!",") ++ toks c!"} = self;") ++
  toks c!"format!(" ++ .str false s.template :: (s.args.flatMap fun x => toks c!"," ++ [.word x]) ++ toks c!")" ++ toks c!"} }"

/-- Tokens of the enum of a module. -/
def enumToks (variants : List (Str × List Str)) (handled : List Str) : List Tok :=
  toks enumHead ++
  (variants.flatMap fun v => wd v.1 ++ toks c!"(" ++
    ((v.2.map fun x => wd x).intersperse [.op c!"::"]).flatten ++ toks c!"),") ++
  toks c!"}" ++ toks enumMiddle ++
  (handled.flatMap fun x => toks c!"Route::" ++ wd x ++ toks c!"(ref route) => route.to_path(),") ++
  toks c!"}" ++ toks c!"} }"

mutual
/-- Tokens of the contents of a module. -/
def modToks (hs : List Tok) : FlattenedModule → List Tok
  | .mk _ actions modules =>
    hs ++ (actions.flatMap fun a => toks structHead ++ structToks (structOf a)) ++
    subToks hs modules ++ enumToks (variantsOf actions modules) (handledOf actions modules)
/-- Tokens of submodules. -/
def subToks (hs : List Tok) : List FlattenedModule → List Tok
  | [] => []
  | m :: ms => toks c!"pub mod" ++ .word (toSnakeCase m.name) :: toks c!"{" ++ modToks hs m ++ toks c!"}" ++ subToks hs ms
end

/-! ## Lexing -/

theorem lexes_comment {s : Str} (h : '\n' ∉ s) (k : Nat) : Lexes (line k (c!"///" ++ s)) [] := by
  have : Lexes (c!"///" ++ s ++ c!"\n") ([] ++ []) := by
    refine lexes_of (st := .neutral) ?_ rfl
    have h1 : run .neutral c!"///" = ([], .comment) := rfl
    rw [run_append, run_append, h1]
    simp only
    rw [run_comment s h]
    rfl
  have := (lexes_ind k).append this
  simpa [Wayfinder.line] using this

theorem renderPath_chars {dyn : Str → Str} {P : Char → Prop} (hsep : P '/') : ∀ {cs : List Charlike},
    (∀ c, .static c ∈ cs → P c) → (∀ p, .dynamic p ∈ cs → ∀ c ∈ dyn p, P c) → ∀ c ∈ renderPath dyn cs, P c := by
  intro cs
  induction cs with
  | nil => intro _ _ c hc; simp [renderPath] at hc
  | cons a cs ih =>
    intro h1 h2 c hc
    have ih := ih (fun c hc => h1 c (List.mem_cons_of_mem _ hc)) fun p hp => h2 p (List.mem_cons_of_mem _ hp)
    cases a with
    | static s =>
      simp only [renderPath, List.mem_cons] at hc
      rcases hc with rfl | hc
      · exact h1 _ (List.mem_cons_self ..)
      · exact ih c hc
    | dynamic p =>
      simp only [renderPath, List.mem_append] at hc
      rcases hc with hc | hc
      · exact h2 p (List.mem_cons_self ..) c hc
      · exact ih c hc
    | separator =>
      cases cs with
      | nil => simp [renderPath] at hc
      | cons b cs =>
        simp only [renderPath, List.mem_cons] at hc
        rcases hc with rfl | hc
        · exact hsep
        · exact ih c hc

theorem mem_charlikes_static {path : List PathSegment} {c : Char} (h : .static c ∈ charlikes path) :
    ∃ s, .static s ∈ path ∧ c ∈ s := by
  unfold charlikes at h
  obtain ⟨l, hl, hc⟩ := List.mem_flatten.1 h
  obtain ⟨seg, hseg, rfl⟩ := List.mem_map.1 hl
  cases seg with
  | static s =>
    simp only [PathSegment.charlikes, List.mem_append, List.mem_map, List.mem_singleton] at hc
    rcases hc with ⟨d, hd, he⟩ | hc
    · cases he; exact ⟨s, hseg, hd⟩
    · cases hc
  | dynamic p => simp [PathSegment.charlikes] at hc

theorem mem_charlikes_dynamic {path : List PathSegment} {x : Str} (h : .dynamic x ∈ charlikes path) :
    ∃ p, .dynamic p ∈ path ∧ p.name = x := by
  unfold charlikes at h
  obtain ⟨l, hl, hc⟩ := List.mem_flatten.1 h
  obtain ⟨seg, hseg, rfl⟩ := List.mem_map.1 hl
  cases seg with
  | static s => simp [PathSegment.charlikes] at hc
  | dynamic p =>
    simp only [PathSegment.charlikes, List.mem_cons, List.not_mem_nil, or_false] at hc
    rcases hc with he | he
    · cases he; exact ⟨p, hseg, rfl⟩
    · cases he

variable {N : Str → Prop} [Wordlike N]

theorem template_chars {a : FlattenedAction} (h : ActionNamed N a) : ∀ c ∈ a.template, textChar c = true := by
  intro c hc
  unfold FlattenedAction.template at hc
  rcases List.mem_append.1 hc with hc | hc
  · rw [List.mem_singleton.1 hc]; decide
  · refine renderPath_chars (P := fun c => textChar c = true) (by decide) ?_ ?_ c hc
    · intro c hc
      obtain ⟨s, hs, hcs⟩ := mem_charlikes_static hc
      exact (h.2.1 _ hs c hcs).1
    · intro p _ c hc
      have : c = '{' ∨ c = '}' := by simpa using hc
      rcases this with rfl | rfl <;> decide

theorem doc_chars {a : FlattenedAction} (h : ActionNamed N a) :
    '\n' ∉ renderPath (fun p => c!"{" ++ p ++ c!"}") (charlikes a.path) := by
  intro hc
  refine renderPath_chars (P := fun c => c ≠ '\n') (by decide) ?_ ?_ '\n' hc rfl
  · intro c hc
    obtain ⟨s, hs, hcs⟩ := mem_charlikes_static hc
    exact (h.2.1 _ hs c hcs).2
  · intro p hp c hc
    obtain ⟨q, hq, rfl⟩ := mem_charlikes_dynamic hp
    have hn : Word q.name := h.2.1 _ hq
    simp only [List.append_assoc, List.cons_append, List.nil_append, List.mem_cons, List.mem_append, List.not_mem_nil,
      or_false] at hc
    rcases hc with rfl | hc | rfl
    · decide
    · rintro rfl; exact lineOf hn hc
    · decide

theorem lexes_name {x : Str} (hx : N x) {s : Str} {ts us : List Tok} {st : LexState}
    (h : run (.word x) s = (ts, st)) (hst : settled st = some us) : Lexes (x ++ s) (ts ++ us) := lexes_word (wordOf hx) h hst

theorem lexes_action (k : Nat) {a : FlattenedAction} (h : ActionNamed N a) : Lexes (renderAction k a)
    (toks structHead ++ structToks (structOf a)) := by
  obtain ⟨hn, hp, hr, hq⟩ := id h
  have hdoc : Lexes (line k (c!"/// Renders for `" ++ a.method.display ++ c!" /"
      ++ renderPath (fun p => c!"{" ++ p ++ c!"}") (charlikes a.path) ++ c!"`.")) [] := by
    refine lexes_comment (s := c!" Renders for `" ++ a.method.display ++ c!" /"
      ++ renderPath (fun p => c!"{" ++ p ++ c!"}") (charlikes a.path) ++ c!"`.") ?_ k
    have h1 := doc_chars h
    have h2 : '\n' ∉ a.method.display := by cases a.method <;> decide
    simp only [List.mem_append, not_or]
    refine ⟨⟨⟨⟨by decide, h2⟩, by decide⟩, h1⟩, by decide⟩
  have hder : Lexes (line k c!"#[derive(Debug, PartialEq, Eq)]") (toks c!"#[derive(Debug, PartialEq, Eq)]") :=
    (lexes_lit (us := [.op [']']]) rfl rfl).line k
  have hstruct : Lexes c!"pub struct " (toks c!"pub struct") := lexes_lit (s := c!"pub struct ") (us := []) rfl rfl
  have hsemi : Lexes (toCapsCase a.name ++ c!";") (wd (toCapsCase a.name) ++ toks c!";") :=
    lexes_caps hn (ts := []) (us := [.op [';']]) rfl rfl rfl
  have hopen : Lexes (toCapsCase a.name ++ c!" {") (wd (toCapsCase a.name) ++ toks c!"{") :=
    lexes_caps hn (ts := []) (us := [.op ['{']]) rfl rfl rfl
  have hclose : ∀ k, Lexes (line k c!"}") (toks c!"}") := fun k => (lexes_lit (us := [.op ['}']]) rfl rfl).line k
  have hpub : Lexes c!"pub " (toks c!"pub") := lexes_lit (s := c!"pub ") (us := []) rfl rfl
  have hrf : Lexes (a.routeParameters.map fun p =>
      line (k + 1) (c!"pub " ++ p.name ++ c!": " ++ p.typ ++ c!",")).flatten
      (a.routeParameters.flatMap fun p => fieldToks ⟨p.name, false, p.typ⟩) := by
    refine .flatten fun p hpm => ?_
    have h1 : Lexes (p.name ++ c!": ") (.word p.name :: toks c!":") := lexes_name (hr p hpm).1 (us := []) rfl rfl
    have h2 : Lexes (p.typ ++ c!",") [.word p.typ, .op [',']] := lexes_name (hr p hpm).2 (us := [.op [',']]) rfl rfl
    have := ((hpub.append h1).append h2).line (k + 1)
    simpa [fieldToks, List.append_assoc] using this
  have hqf : Lexes (a.queryParameters.map fun p =>
      line (k + 1) (c!"pub " ++ p.name ++ c!": Option<" ++ p.typ ++ c!">,")).flatten
      (a.queryParameters.flatMap fun p => fieldToks ⟨p.name, true, p.typ⟩) := by
    refine .flatten fun p hpm => ?_
    have h2 : Lexes (p.name ++ c!": Option<" ++ p.typ ++ c!">,")
        (.word p.name :: toks c!":" ++ .word c!"Option" :: .op ['<'] :: .word p.typ :: [.op ['>'], .op [',']]) := by
      refine lexes_of (s := p.name ++ c!": Option<" ++ p.typ ++ c!">,") (st := .op ',')
        (ts := .word p.name :: toks c!":" ++ .word c!"Option" :: .op ['<'] :: .word p.typ :: [.op ['>']])
        (us := [.op [',']]) ?_ rfl
      have e1 : run (.word p.name) c!": Option<" = (.word p.name :: toks c!":" ++ [.word c!"Option"], .op '<') := rfl
      have e2 : run (.word p.typ) c!">," = ([.word p.typ, .op ['>']], .op ',') := rfl
      rw [run_append, run_append, run_append, run_word (wordOf (hq p hpm).1)]
      simp only [e1, run_op_word (wordOf (hq p hpm).2), e2]
      simp
    have := (hpub.append h2).line (k + 1)
    simpa [fieldToks, List.append_assoc] using this
  have himpl : Lexes c!"impl " (toks c!"impl") := lexes_lit (s := c!"impl ") (us := []) rfl rfl
  have hmake : Lexes (line (k + 1) c!"/// Make a path to this route with the given parameters.") [] :=
    lexes_comment (s := c!" Make a path to this route with the given parameters.") (by decide) _
  have hfn : Lexes (line (k + 1) c!"pub fn to_path(&self) -> String {") (toks c!"pub fn to_path(&self) -> String {") :=
    (lexes_lit (us := [.op ['{']]) rfl rfl).line _
  have hlet : Lexes c!"let " (toks c!"let") := lexes_lit (s := c!"let ") (us := []) rfl rfl
  have hopen2 : Lexes (toCapsCase a.name ++ c!" { ") (wd (toCapsCase a.name) ++ toks c!"{") :=
    lexes_caps hn (us := []) rfl rfl rfl
  have hbound : ∀ x ∈ a.bound, N x := by
    intro x hx
    rcases List.mem_append.1 hx with hx | hx <;> obtain ⟨p, hpm, rfl⟩ := List.mem_map.1 hx
    · exact (hr p hpm).1
    · exact (hq p hpm).1
  have hrefs : Lexes (a.bound.map fun x => c!"ref " ++ x ++ c!", ").flatten
      (a.bound.flatMap fun x => toks c!"ref" ++ .word x :: toks c!",") := by
    refine .flatten fun x hx => ?_
    have h1 : Lexes c!"ref " (toks c!"ref") := lexes_lit (s := c!"ref ") (us := []) rfl rfl
    have h2 : Lexes (x ++ c!", ") (.word x :: toks c!",") := lexes_name (hbound x hx) (us := []) rfl rfl
    simpa [List.append_assoc] using h1.append h2
  have hself : Lexes c!"} = self;" (toks c!"} = self;") := lexes_lit (us := [.op [';']]) rfl rfl
  have hargs : ∀ x ∈ a.formatArgs, N x := by
    intro x hx
    obtain ⟨p, hpm, rfl⟩ := List.mem_map.1 hx
    exact (hr p hpm).1
  have hfmt : Lexes (c!"format!(\"" ++ a.template ++ c!"\"") (toks c!"format!(" ++ [.str false a.template]) := by
    refine lexes_str (fun c hc => textChar_plain (template_chars h c hc)) (b := false) (st := .neutral) (us := []) (ts := [.str false a.template]) ?_ ?_ ?_ <;> rfl
  have hfmtLine : ∀ xs : List Str, (∀ x ∈ xs, N x) → Lexes ((xs.map fun x => c!", " ++ x).flatten ++ c!")")
      ((xs.flatMap fun x => toks c!"," ++ [.word x]) ++ toks c!")") := by
    intro xs hxs
    have aux : ∀ xs : List Str, (∀ x ∈ xs, N x) → ∀ y, N y →
        run (.word y) ((xs.map fun x => c!", " ++ x).flatten ++ c!")") =
        (.word y :: (xs.flatMap fun x => toks c!"," ++ [.word x]), .op ')') := by
      intro xs
      induction xs with
      | nil => intro _ y _; rfl
      | cons x xs ih =>
        intro hxs y hy
        have ih := ih (fun z hz => hxs z (List.mem_cons_of_mem _ hz)) x (hxs x (List.mem_cons_self ..))
        have e1 : ∀ rest, run (.word y) (c!", " ++ rest) = (.word y :: .op [','] :: (run .neutral rest).1, (run .neutral rest).2) := by
          intro rest
          rw [run_append]
          rfl
        simp only [List.map_cons, List.flatten_cons, List.append_assoc]
        rw [e1, run_append, run_word (wordOf (hxs x (List.mem_cons_self ..)))]
        simp only [ih]
        rfl
    cases xs with
    | nil => exact lexes_lit (s := c!")") (us := [.op [')']]) rfl rfl
    | cons x xs =>
      have hx := hxs x (List.mem_cons_self ..)
      have h1 := aux xs (fun z hz => hxs z (List.mem_cons_of_mem _ hz)) x hx
      refine lexes_of (st := .op ')') (us := [.op [')']]) ?_ rfl
      have e1 : ∀ rest, run .neutral (c!", " ++ rest) = (.op [','] :: (run .neutral rest).1, (run .neutral rest).2) := by
        intro rest
        rw [run_append]
        rfl
      simp only [List.map_cons, List.flatten_cons, List.append_assoc]
      rw [e1, run_append, run_word (wordOf hx)]
      simp only [h1]
      rfl
  have hformat := (hfmt.append (hfmtLine a.formatArgs hargs)).line (k + 2)
  have hder' : toks structHead = toks c!"#[derive(Debug, PartialEq, Eq)]" ++ toks c!"pub struct" := by
    decide
  have hto : toks c!"{ pub fn to_path(&self) -> String {" = toks c!"{" ++ toks c!"pub fn to_path(&self) -> String {" := by
    decide
  have hend : toks c!"} }" = toks c!"}" ++ toks c!"}" := by decide
  unfold renderAction structToks
  simp only
  by_cases hno : a.routeParameters.isEmpty && a.queryParameters.isEmpty
  · have hr0 : a.routeParameters = [] := by simpa using (Bool.and_eq_true_iff.1 hno).1
    have hq0 : a.queryParameters = [] := by simpa using (Bool.and_eq_true_iff.1 hno).2
    have hf0 : (structOf a).fields = [] := by simp [structOf, hr0, hq0]
    have hb0 : (structOf a).bound = [] := by simp [structOf, FlattenedAction.bound, hr0, hq0]
    rw [if_pos hno, if_pos hno, if_pos hf0, if_pos hb0]
    have := (((((((((hdoc.append hder).append ((hstruct.append hsemi).line k)).append lexes_newline).append
      ((himpl.append hopen).line k)).append hmake).append hfn).append hformat).append (hclose (k + 1))).append
      (hclose k)).append lexes_newline
    rw [hder', hto, hend]
    simpa [List.append_assoc, structOf] using this
  · have hf0 : (structOf a).fields ≠ [] := by
      intro h0
      apply hno
      simp only [structOf, List.append_eq_nil_iff, List.map_eq_nil_iff] at h0
      simp [h0.1, h0.2]
    have hb0 : (structOf a).bound ≠ [] := by
      intro h0
      apply hno
      simp only [structOf, FlattenedAction.bound, List.append_eq_nil_iff, List.map_eq_nil_iff] at h0
      simp [h0.1, h0.2]
    rw [if_neg hno, if_neg hno, if_neg hf0, if_neg hb0]
    have hdecl := (((((hstruct.append hopen).line k)).append hrf).append hqf).append (hclose k)
    have hbind := (((hlet.append hopen2).append hrefs).append hself).line (k + 2)
    have := ((((((((((hdoc.append hder).append hdecl).append lexes_newline).append
      ((himpl.append hopen).line k)).append hmake).append hfn).append hbind).append hformat).append (hclose (k + 1))).append
      (hclose k)).append lexes_newline
    rw [hder', hto, hend]
    have hff : (structOf a).fields.flatMap fieldToks =
        (a.routeParameters.flatMap fun p => fieldToks ⟨p.name, false, p.typ⟩) ++
        a.queryParameters.flatMap fun p => fieldToks ⟨p.name, true, p.typ⟩ := by
      simp [structOf, List.flatMap_append, List.flatMap_map]
    rw [hff]
    simpa [List.append_assoc, structOf] using this

theorem lexes_enum (k : Nat) (name : Str) {actions : List FlattenedAction} {modules : List FlattenedModule}
    (hname : k = 1 ∨ N (toSnakeCase name)) (ha : ∀ a ∈ actions, CapsIn N (toCapsCase a.name))
    (hm : ∀ m ∈ modules, N (toSnakeCase m.name) ∧ CapsIn N (toCapsCase m.name)) :
    Lexes (renderRouteEnum k name actions modules) (enumToks (variantsOf actions modules) (handledOf actions modules)) := by
  have hdoc : Lexes (if k = 1 then line k c!"/// An active route in the application -- match against this."
      else line k (c!"/// Parameters for requests to the " ++ toSnakeCase name ++ c!" controller.")) [] := by
    by_cases hk : k = 1
    · rw [if_pos hk]
      exact lexes_comment (s := c!" An active route in the application -- match against this.") (by decide) k
    · rw [if_neg hk]
      refine lexes_comment (s := c!" Parameters for requests to the " ++ toSnakeCase name ++ c!" controller.") ?_ k
      have := lineOf (hname.resolve_left hk)
      simp only [List.mem_append, not_or]
      exact ⟨⟨by decide, this⟩, by decide⟩
  have hder : Lexes (line k c!"#[derive(Debug, PartialEq, Eq)]") (toks c!"#[derive(Debug, PartialEq, Eq)]") :=
    (lexes_lit (us := [.op [']']]) rfl rfl).line k
  have henum : Lexes (line k c!"pub enum Route {") (toks c!"pub enum Route {") := (lexes_lit (us := [.op ['{']]) rfl rfl).line k
  have hclose : ∀ k, Lexes (line k c!"}") (toks c!"}") := fun k => (lexes_lit (us := [.op ['}']]) rfl rfl).line k
  have hva : Lexes (actions.map fun a => line (k + 1) (toCapsCase a.name ++ c!"(" ++ toCapsCase a.name ++ c!"),")).flatten
      (actions.flatMap fun a => wd (toCapsCase a.name) ++ (toks c!"(" ++ (wd (toCapsCase a.name) ++ toks c!"),"))) := by
    refine .flatten fun a hma => ?_
    have h1 : Lexes (toCapsCase a.name ++ c!"(") (wd (toCapsCase a.name) ++ toks c!"(") :=
      lexes_caps (ha a hma) (ts := []) (us := [.op ['(']]) rfl rfl rfl
    have h2 : Lexes (toCapsCase a.name ++ c!"),") (wd (toCapsCase a.name) ++ toks c!"),") :=
      lexes_caps (ha a hma) (us := [.op [',']]) rfl rfl rfl
    simpa [List.append_assoc] using (h1.append h2).line (k + 1)
  have hvm : Lexes (modules.map fun m => line (k + 1) (toCapsCase m.name ++ c!"(" ++ toSnakeCase m.name ++ c!"::Route),")).flatten
      (modules.flatMap fun m => wd (toCapsCase m.name) ++ (toks c!"(" ++
        (wd (toSnakeCase m.name) ++ .op c!"::" :: (wd c!"Route" ++ toks c!"),")))) := by
    refine .flatten fun m hmm => ?_
    have h1 : Lexes (toCapsCase m.name ++ c!"(") (wd (toCapsCase m.name) ++ toks c!"(") :=
      lexes_caps (hm m hmm).2 (ts := []) (us := [.op ['(']]) rfl rfl rfl
    have h2 : Lexes (toSnakeCase m.name ++ c!"::Route),")
        (.word (toSnakeCase m.name) :: .op c!"::" :: .word c!"Route" :: toks c!"),") :=
      lexes_name (hm m hmm).1 (us := [.op [',']]) rfl rfl
    simpa [List.append_assoc, (wordOf (hm m hmm).1).wd, name_route.wd] using (h1.append h2).line (k + 1)
  have himpl : Lexes (line k c!"impl Route {") (toks c!"impl Route {") := (lexes_lit (us := [.op ['{']]) rfl rfl).line k
  have hmake : Lexes (line (k + 1) c!"/// Make a path to this route with the given parameters.") [] :=
    lexes_comment (s := c!" Make a path to this route with the given parameters.") (by decide) _
  have hfn : Lexes (line (k + 1) c!"pub fn to_path(&self) -> String {") (toks c!"pub fn to_path(&self) -> String {") :=
    (lexes_lit (us := [.op ['{']]) rfl rfl).line _
  have hmatch : Lexes (line (k + 2) c!"match self {") (toks c!"match self {") := (lexes_lit (us := [.op ['{']]) rfl rfl).line _
  have hh : ∀ x, CapsIn N x → Lexes (line (k + 3) (c!"Route::" ++ x ++ c!"(ref route) => route.to_path(),"))
      (toks c!"Route::" ++ (wd x ++ toks c!"(ref route) => route.to_path(),")) := by
    intro x hx
    have h2 : Lexes (x ++ c!"(ref route) => route.to_path(),") (wd x ++ toks c!"(ref route) => route.to_path(),") :=
      lexes_caps hx (us := [.op [',']]) rfl rfl rfl
    simpa [List.append_assoc] using (lexes_route.append h2).line (k + 3)
  have hha : Lexes (actions.map fun a =>
      line (k + 3) (c!"Route::" ++ toCapsCase a.name ++ c!"(ref route) => route.to_path(),")).flatten
      (actions.flatMap fun a => toks c!"Route::" ++ (wd (toCapsCase a.name) ++ toks c!"(ref route) => route.to_path(),")) :=
    .flatten fun a hma => hh _ (ha a hma)
  have hhm : Lexes (modules.map fun m =>
      line (k + 3) (c!"Route::" ++ toCapsCase m.name ++ c!"(ref route) => route.to_path(),")).flatten
      (modules.flatMap fun m => toks c!"Route::" ++ (wd (toCapsCase m.name) ++ toks c!"(ref route) => route.to_path(),")) :=
    .flatten fun m hmm => hh _ (hm m hmm).2
  have := ((((((((((((((hdoc.append hder).append henum).append hva).append hvm).append (hclose k)).append lexes_newline).append
    himpl).append hmake).append hfn).append hmatch).append hha).append hhm).append (hclose (k + 2))).append (hclose (k + 1))).append
    (hclose k)
  have e1 : toks enumHead =
    toks c!"#[derive(Debug, PartialEq, Eq)]" ++ toks c!"pub enum Route {" := by decide
  have e2 : toks enumMiddle =
    toks c!"impl Route {" ++ (toks c!"pub fn to_path(&self) -> String {" ++ toks c!"match self {") := by decide
  have e3 : toks c!"} }" = toks c!"}" ++ toks c!"}" := by decide
  unfold renderRouteEnum enumToks variantsOf handledOf
  rw [e1, e2, e3]
  simp only [List.flatMap_append, List.flatMap_map, List.map_cons, List.map_nil, List.intersperse, List.flatten_cons,
    List.flatten_nil, List.append_nil, List.append_assoc, List.cons_append, List.nil_append] at this ⊢
  exact this

theorem lexes_headers (k : Nat) {headers : List Header} (h : HeadersRead headers) :
    Lexes (renderHeaders k headers) (headerToks headers) := by
  have h1 : Lexes (headers.map fun h => line k h.text).flatten (headerToks headers) := by
    refine .flatten fun x hx => ?_
    have h2 : Lexes (x.text ++ c!"\n") ((run .neutral (x.text ++ c!"\n")).1 ++ []) := by
      refine lexes_of (st := (run .neutral (x.text ++ c!"\n")).2) rfl ?_
      rw [h x hx]
      rfl
    have := (lexes_ind k).append h2
    simpa [Wayfinder.line] using this
  unfold renderHeaders
  split
  · simpa using h1.append lexes_newline
  · simpa using h1.append Lexes.nil

theorem ModsNamed.mem : ∀ {ms : List FlattenedModule}, ModsNamed N ms → ∀ m ∈ ms,
    N (toSnakeCase m.name) ∧ CapsIn N (toCapsCase m.name) ∧ ModNamed N m
  | [], _, m, hm => by cases hm
  | x :: ms, h, m, hm => by
    simp only [ModsNamed] at h
    rcases List.mem_cons.1 hm with rfl | hm
    · exact ⟨h.1, h.2.1, h.2.2.1⟩
    · exact ModsNamed.mem h.2.2.2 m hm

mutual
theorem lexes_module {headers : List Header} (hh : HeadersRead headers) : ∀ (m : FlattenedModule) (k : Nat),
    (k = 1 ∨ N (toSnakeCase m.name)) → ModNamed N m → Lexes (renderModule headers k m) (modToks (headerToks headers) m)
  | .mk name actions modules, k, hk, h => by
    simp only [ModNamed] at h
    have h1 : Lexes (actions.map (renderAction k)).flatten
        (actions.flatMap fun a => toks structHead ++ structToks (structOf a)) :=
      .flatten fun a ha => lexes_action k (h.1 a ha)
    have h2 := lexes_subs hh modules k h.2
    have h3 := lexes_enum k name (actions := actions) (modules := modules) hk (fun a ha => (h.1 a ha).1) fun m hm =>
      ⟨(h.2.mem m hm).1, (h.2.mem m hm).2.1⟩
    have := (((lexes_headers k hh).append h1).append h2).append h3
    simpa [renderModule, modToks, List.append_assoc] using this
theorem lexes_subs {headers : List Header} (hh : HeadersRead headers) : ∀ (ms : List FlattenedModule) (k : Nat),
    ModsNamed N ms → Lexes (renderSubmodules headers k ms) (subToks (headerToks headers) ms)
  | [], _, _ => by simpa [renderSubmodules, subToks] using Lexes.nil
  | m :: ms, k, h => by
    simp only [ModsNamed] at h
    have h1 := lexes_sub hh m k h.1 h.2.2.1
    have h2 := lexes_subs hh ms k h.2.2.2
    have := h1.append h2
    simpa [renderSubmodules, subToks, List.append_assoc] using this
theorem lexes_sub {headers : List Header} (hh : HeadersRead headers) : ∀ (m : FlattenedModule) (k : Nat),
    N (toSnakeCase m.name) → ModNamed N m → Lexes (renderSubmodule headers k m)
      (toks c!"pub mod" ++ .word (toSnakeCase m.name) :: toks c!"{" ++ modToks (headerToks headers) m ++ toks c!"}")
  | .mk name actions modules, k, hk, h => by
    have hm0 := h
    simp only [ModNamed] at h
    have h1 : Lexes (actions.map (renderAction (k + 1))).flatten
        (actions.flatMap fun a => toks structHead ++ structToks (structOf a)) :=
      .flatten fun a ha => lexes_action (k + 1) (h.1 a ha)
    have h2 := lexes_subs hh modules (k + 1) h.2
    have h3 := lexes_enum (k + 1) name (actions := actions) (modules := modules) (.inr hk) (fun a ha => (h.1 a ha).1) fun m hm =>
      ⟨(h.2.mem m hm).1, (h.2.mem m hm).2.1⟩
    have h4 : Lexes c!"pub mod " (toks c!"pub mod") := lexes_lit (s := c!"pub mod ") (us := []) rfl rfl
    have h5 : Lexes (toSnakeCase name ++ c!" {") (.word (toSnakeCase name) :: toks c!"{") :=
      lexes_name hk (us := [.op ['{']]) rfl rfl
    have h6 : Lexes (line k c!"}") (toks c!"}") := (lexes_lit (us := [.op ['}']]) rfl rfl).line k
    have := ((((h4.append h5).line k).append ((((lexes_headers (k + 1) hh).append h1).append h2).append h3)).append h6).append
      lexes_newline
    simpa [renderSubmodule, modToks, FlattenedModule.name, List.append_assoc] using this
end

/-! ## Reading -/

theorem readType_field (f : Field) (hf : Name f.typ) (ts : List Tok) :
    readType ((if f.optional then .word c!"Option" :: .op ['<'] :: .word f.typ :: [.op ['>'], .op [',']] else [.word f.typ, .op [',']]) ++ ts) =
      some (f.optional, f.typ, ts) := by
  cases f.optional <;> simp [readType, hf.2]

theorem readDeclFields_fields : ∀ (fs : List Field) (n : Nat) (ts : List Tok), (∀ f ∈ fs, Name f.name ∧ Name f.typ) →
    fs.length + 1 ≤ n → readDeclFields n (fs.flatMap fieldToks ++ (toks c!"}" ++ ts)) = some (fs, ts)
  | _, 0, _, _, hn => by omega
  | [], n + 1, ts, _, _ => by simp [readDeclFields, eatText_append]
  | f :: fs, n + 1, ts, h, hn => by
    have hf := h f (List.mem_cons_self ..)
    have ih := readDeclFields_fields fs n ts (fun x hx => h x (List.mem_cons_of_mem _ hx)) (by simpa using hn)
    have he : ∀ l, eatText c!"}" (toks c!"pub" ++ l) = none := fun _ => rfl
    simp only [List.flatMap_cons, fieldToks, List.append_assoc, List.cons_append] at ih ⊢
    rw [readDeclFields, he]
    simp only [eatText_append, readName_name hf.1, readType_field f hf.2, ih, Option.bind_eq_bind, Option.bind_some]
    rfl

theorem readBound_bound : ∀ (xs : List Str) (n : Nat) (ts : List Tok), (∀ x ∈ xs, Name x) → xs.length + 1 ≤ n →
    readBound n ((xs.flatMap fun x => toks c!"ref" ++ .word x :: toks c!",") ++ (toks c!"} = self;" ++ ts)) = some (xs, ts)
  | _, 0, _, _, hn => by omega
  | [], n + 1, ts, _, _ => by simp [readBound, eatText_append]
  | x :: xs, n + 1, ts, h, hn => by
    have hx := h x (List.mem_cons_self ..)
    have ih := readBound_bound xs n ts (fun x hx => h x (List.mem_cons_of_mem _ hx)) (by simpa using hn)
    have he : ∀ l, eatText c!"} = self;" (toks c!"ref" ++ l) = none := fun _ => rfl
    simp only [List.flatMap_cons, List.append_assoc, List.cons_append] at ih ⊢
    rw [readBound, he]
    simp only [eatText_append, readName_name hx, ih, Option.bind_eq_bind, Option.bind_some]
    rfl

theorem readArgs_args : ∀ (xs : List Str) (n : Nat) (ts : List Tok), (∀ x ∈ xs, Name x) → xs.length + 1 ≤ n →
    readArgs n ((xs.flatMap fun x => toks c!"," ++ [.word x]) ++ (toks c!")" ++ ts)) = some (xs, ts)
  | _, 0, _, _, hn => by omega
  | [], n + 1, ts, _, _ => by simp [readArgs, eatText_append]
  | x :: xs, n + 1, ts, h, hn => by
    have hx := h x (List.mem_cons_self ..)
    have ih := readArgs_args xs n ts (fun x hx => h x (List.mem_cons_of_mem _ hx)) (by simpa using hn)
    have he : ∀ l, eatText c!")" (toks c!"," ++ l) = none := fun _ => rfl
    simp only [List.flatMap_cons, List.append_assoc, List.cons_append, List.nil_append] at ih ⊢
    rw [readArgs, he]
    simp only [eatText_append, readName_name hx, ih, Option.bind_eq_bind, Option.bind_some]
    rfl

/-- Names of a struct. -/
def StructNamed (s : Struct) : Prop :=
  Name s.name ∧ (∀ f ∈ s.fields, Name f.name ∧ Name f.typ) ∧ (∀ x ∈ s.bound, Name x) ∧ ∀ x ∈ s.args, Name x

theorem readStruct_struct {s : Struct} (h : StructNamed s) (n : Nat) (ts : List Tok) (hn : (structToks s).length ≤ n) :
    readStruct n (structToks s ++ ts) = some (s, ts) := by
  obtain ⟨h1, h2, h3, h4⟩ := h
  obtain ⟨name, fields, bound, template, args⟩ := s
  simp only at h1 h2 h3 h4
  have hl1 : ∀ fs : List Field, fs.length ≤ (fs.flatMap fieldToks).length := by
    intro fs
    induction fs with
    | nil => simp
    | cons f fs ih =>
      have : 1 ≤ (fieldToks f).length := by simp [fieldToks]; omega
      rw [List.flatMap_cons, List.length_append, List.length_cons]
      omega
  have hl2 : ∀ xs : List Str, xs.length ≤ (xs.flatMap fun x => toks c!"ref" ++ .word x :: toks c!",").length := by
    intro xs
    induction xs with
    | nil => simp
    | cons f fs ih => simp at ih ⊢; omega
  have hl3 : ∀ xs : List Str, xs.length ≤ (xs.flatMap fun x => toks c!"," ++ [Tok.word x]).length := by
    intro xs
    induction xs with
    | nil => simp
    | cons f fs ih => simp at ih ⊢; omega
  have hb : fields.length ≤ (fields.flatMap fieldToks).length := hl1 fields
  have hbody : ∀ l, readStructBody n ((if fields = [] then toks c!";" else toks c!"{" ++ fields.flatMap fieldToks ++ toks c!"}") ++
      (toks c!"impl" ++ l)) = some (fields, toks c!"impl" ++ l) := by
    intro l
    by_cases hf : fields = []
    · rw [if_pos hf, readStructBody, eatText_append, hf]
    · rw [if_neg hf]
      simp only [structToks, if_neg hf, List.length_append, List.length_cons] at hn
      have he : ∀ l, readStructBody n (toks c!"{" ++ l) = readDeclFields n l := fun _ => rfl
      rw [List.append_assoc, List.append_assoc, he]
      exact readDeclFields_fields fields n _ h2 (by omega)
  have hlet : ∀ l, readLetSelf n name ((if bound = [] then [] else toks c!"let" ++ wd name ++ toks c!"{" ++
    (bound.flatMap fun x => toks c!"ref" ++ .word x :: toks c!",") ++ toks c!"} = self;") ++ (toks c!"format!(" ++ l)) =
      some (bound, toks c!"format!(" ++ l) := by
    intro l
    by_cases hf : bound = []
    · rw [if_pos hf, hf]
      rfl
    · rw [if_neg hf]
      have hb := hl2 bound
      simp only [structToks, if_neg hf, List.length_append, List.length_cons] at hn
      have := readBound_bound bound n (toks c!"format!(" ++ l) h3 (by simp only [List.length_flatMap] at *; omega)
      simp only [List.append_assoc, List.cons_append] at this ⊢
      rw [readLetSelf, eatText_append]
      simp only [readName_wd h1, eatText_append, Option.bind_eq_bind, Option.bind_some, if_true]
      exact this
  have hargs := readArgs_args args n (toks c!"} }" ++ ts) h4 (by
    have := hl3 args
    simp only [structToks, List.length_append, List.length_cons] at hn
    simp only [List.length_flatMap] at *
    omega)
  have hs : ∀ l, readStr (.str false template :: l) = some (template, l) := fun _ => rfl
  unfold structToks readStruct
  simp only [List.append_assoc, List.cons_append] at hbody hlet hargs ⊢
  simp only [readName_wd h1, hbody, eatText_append, hlet, hs, hargs, Option.bind_eq_bind, Option.bind_some, if_true]
  rfl

theorem readStructs_structs : ∀ (ss : List Struct) (n : Nat) (ts : List Tok), (∀ s ∈ ss, StructNamed s) →
    eatText structHead ts = none →
    (ss.flatMap fun s => toks structHead ++ structToks s).length + 1 ≤ n →
    readStructs n ((ss.flatMap fun s => toks structHead ++ structToks s) ++ ts) = some (ss, ts)
  | _, 0, _, _, _, hn => by omega
  | [], n + 1, ts, _, ht, _ => by simp [readStructs, ht]
  | s :: ss, n + 1, ts, h, ht, hn => by
    have hs := h s (List.mem_cons_self ..)
    simp only [List.flatMap_cons, List.length_append, List.append_assoc] at hn ⊢
    have e1 : (toks structHead).length = 13 := rfl
    have ih := readStructs_structs ss n ts (fun x hx => h x (List.mem_cons_of_mem _ hx)) ht (by omega)
    rw [readStructs, eatText_append]
    simp only [readStruct_struct hs n _ (by omega), ih, Option.bind_eq_bind, Option.bind_some]
    rfl

/-- Tokens of `a::b::c`. -/
def pathToks : List Str → List Tok
  | [] => []
  | [x] => wd x
  | x :: y :: p => wd x ++ .op c!"::" :: pathToks (y :: p)

theorem pathToks_eq : ∀ p : List Str, ((p.map fun x => wd x).intersperse [.op c!"::"]).flatten = pathToks p
  | [] => rfl
  | [x] => by simp [pathToks]
  | x :: y :: p => by
    have ih := pathToks_eq (y :: p)
    simp only [List.map_cons] at ih
    simp only [List.map_cons, List.intersperse_cons_cons, List.flatten_cons, pathToks, ih]
    rfl

theorem readPath_toks : ∀ (p : List Str) (t : Tok) (ts : List Tok), p ≠ [] → (∀ x ∈ p, Name x) → t ≠ .op c!"::" →
    readPath (pathToks p ++ t :: ts) = some (p, t :: ts)
  | [], _, _, h, _, _ => absurd rfl h
  | [x], t, ts, _, h, ht => by
    rw [pathToks, (h x (List.mem_cons_self ..)).wd]
    exact readPath_last (h x (List.mem_cons_self ..)) ht ts
  | x :: y :: p, t, ts, _, h, ht => by
    have ih := readPath_toks (y :: p) t ts (by simp) (fun z hz => h z (List.mem_cons_of_mem _ hz)) ht
    simp only [pathToks, (h x (List.mem_cons_self ..)).wd, List.cons_append, List.nil_append]
    rw [readPath_cons (h x (List.mem_cons_self ..)), ih]
    rfl

theorem readVariants_variants : ∀ (vs : List (Str × List Str)) (n : Nat) (ts : List Tok),
    (∀ v ∈ vs, Name v.1 ∧ v.2 ≠ [] ∧ ∀ x ∈ v.2, Name x) → vs.length + 1 ≤ n →
    readVariants n ((vs.flatMap fun v => wd v.1 ++ toks c!"(" ++
      ((v.2.map fun x => wd x).intersperse [.op c!"::"]).flatten ++ toks c!"),") ++ (toks c!"}" ++ ts)) = some (vs, ts)
  | _, 0, _, _, hn => by omega
  | [], n + 1, ts, _, _ => by simp [readVariants, eatText_append]
  | v :: vs, n + 1, ts, h, hn => by
    have hv := h v (List.mem_cons_self ..)
    have ih := readVariants_variants vs n ts (fun x hx => h x (List.mem_cons_of_mem _ hx)) (by simpa using hn)
    have he : ∀ l, eatText c!"}" (wd v.1 ++ l) = none := by rw [hv.1.wd]; exact fun _ => rfl
    have hp : ∀ l, readPath (pathToks v.2 ++ (toks c!")," ++ l)) = some (v.2, toks c!")," ++ l) := fun l =>
      readPath_toks v.2 (.op [')']) (.op [','] :: l) hv.2.1 hv.2.2 (by decide)
    simp only [pathToks_eq] at ih ⊢
    simp only [List.flatMap_cons, List.append_assoc, List.cons_append] at ih ⊢
    rw [readVariants, he]
    simp only [eatText_append, readName_wd hv.1, hp, ih, Option.bind_eq_bind, Option.bind_some]
    rfl

theorem readHandled_handled : ∀ (xs : List Str) (n : Nat) (ts : List Tok), (∀ x ∈ xs, Name x) → xs.length + 1 ≤ n →
    readHandled n ((xs.flatMap fun x => toks c!"Route::" ++ wd x ++ toks c!"(ref route) => route.to_path(),") ++
      (toks c!"}" ++ ts)) = some (xs, ts)
  | _, 0, _, _, hn => by omega
  | [], n + 1, ts, _, _ => by simp [readHandled, eatText_append]
  | x :: xs, n + 1, ts, h, hn => by
    have hx := h x (List.mem_cons_self ..)
    have ih := readHandled_handled xs n ts (fun x hx => h x (List.mem_cons_of_mem _ hx)) (by simpa using hn)
    have he : ∀ l, eatText c!"}" (toks c!"Route::" ++ l) = none := fun _ => rfl
    simp only [List.flatMap_cons, List.append_assoc, List.cons_append] at ih ⊢
    rw [readHandled, he]
    simp only [eatText_append, readName_wd hx, ih, Option.bind_eq_bind, Option.bind_some]
    rfl

theorem readEnum_enum {vs : List (Str × List Str)} {xs : List Str} (hv : ∀ v ∈ vs, Name v.1 ∧ v.2 ≠ [] ∧ ∀ x ∈ v.2, Name x)
    (hx : ∀ x ∈ xs, Name x) (n : Nat) (ts : List Tok) (hn : (enumToks vs xs).length ≤ n + 1) :
    readEnum n (enumToks vs xs ++ ts) = some (vs, xs, ts) := by
  have e0 : (toks c!"(").length = 1 := rfl
  have e0' : (toks c!"Route::").length = 2 := rfl
  have hl1 : vs.length ≤ (vs.flatMap fun v => wd v.1 ++ toks c!"(" ++
      ((v.2.map fun x => wd x).intersperse [.op c!"::"]).flatten ++ toks c!"),").length := by
    clear hv hn
    induction vs with
    | nil => simp
    | cons v vs ih => rw [List.flatMap_cons, List.length_append, List.length_cons]; simp only [List.length_append, List.length_cons]; omega
  have hl2 : xs.length ≤ (xs.flatMap fun x => toks c!"Route::" ++ wd x ++ toks c!"(ref route) => route.to_path(),").length := by
    clear hx hn
    induction xs with
    | nil => simp
    | cons v vs ih => rw [List.flatMap_cons, List.length_append, List.length_cons]; simp only [List.length_append, List.length_cons]; omega
  have e1 : (toks c!"}").length = 1 := rfl
  have e2 : (toks enumHead).length = 15 := rfl
  unfold enumToks at hn ⊢
  simp only [List.length_append] at hn
  have h1 := readVariants_variants vs n (toks enumMiddle ++
    ((xs.flatMap fun x => toks c!"Route::" ++ wd x ++ toks c!"(ref route) => route.to_path(),") ++
    (toks c!"}" ++ (toks c!"} }" ++ ts)))) hv (by omega)
  have h2 := readHandled_handled xs n (toks c!"} }" ++ ts) hx (by omega)
  unfold readEnum
  simp only [List.append_assoc] at h1 h2 ⊢
  simp only [eatText_append, h1, h2, Option.bind_eq_bind, Option.bind_some]
  rfl

theorem structOf_named {a : FlattenedAction} (h : ActionNamed Name a) : StructNamed (structOf a) := by
  obtain ⟨hn, hp, hr, hq⟩ := h
  refine ⟨capsIn_name.1 hn, ?_, ?_, ?_⟩
  · intro f hf
    rcases List.mem_append.1 hf with hf | hf <;> obtain ⟨p, hpm, rfl⟩ := List.mem_map.1 hf
    · exact hr p hpm
    · exact hq p hpm
  · intro x hx
    rcases List.mem_append.1 hx with hx | hx <;> obtain ⟨p, hpm, rfl⟩ := List.mem_map.1 hx
    · exact (hr p hpm).1
    · exact (hq p hpm).1
  · intro x hx
    obtain ⟨p, hpm, rfl⟩ := List.mem_map.1 hx
    exact (hr p hpm).1

theorem subs_not_struct (hs : List Tok) (ms : List FlattenedModule) (vs : List (Str × List Str)) (xs : List Str) (ts : List Tok) :
    eatText structHead (subToks hs ms ++ (enumToks vs xs ++ ts)) = none := by
  cases ms with
  | nil => simp only [subToks, enumToks, List.append_assoc, List.nil_append]; rfl
  | cons m ms => simp only [subToks, List.append_assoc]; rfl

mutual
theorem readMod_mod (hs : List Tok) : ∀ (m : FlattenedModule) (n : Nat) (ts : List Tok), ModNamed Name m →
    (modToks hs m).length ≤ n → readMod hs n (modToks hs m ++ ts) = some (modOf m, ts)
  | .mk name actions modules, n, ts, h, hn => by
    simp only [ModNamed] at h
    simp only [modToks, List.length_append] at hn
    have hv : ∀ v ∈ variantsOf actions modules, Name v.1 ∧ v.2 ≠ [] ∧ ∀ x ∈ v.2, Name x := by
      intro v hv
      rcases List.mem_append.1 hv with hv | hv
      · obtain ⟨a, ha, rfl⟩ := List.mem_map.1 hv
        have hn := capsIn_name.1 (h.1 a ha).1
        exact ⟨hn, by simp, by simpa using hn⟩
      · obtain ⟨m, hm, rfl⟩ := List.mem_map.1 hv
        obtain ⟨h1, h2, _⟩ := h.2.mem m hm
        refine ⟨capsIn_name.1 h2, by simp, ?_⟩
        intro x hx
        rcases List.mem_cons.1 hx with rfl | hx
        · exact h1
        · rw [List.mem_singleton.1 hx]; exact name_route
    have hh : ∀ x ∈ handledOf actions modules, Name x := by
      intro v hv
      rcases List.mem_append.1 hv with hv | hv
      · obtain ⟨a, ha, rfl⟩ := List.mem_map.1 hv
        exact capsIn_name.1 (h.1 a ha).1
      · obtain ⟨m, hm, rfl⟩ := List.mem_map.1 hv
        exact capsIn_name.1 (h.2.mem m hm).2.1
    have e1 : 14 ≤ (enumToks (variantsOf actions modules) (handledOf actions modules)).length := by
      have : (toks enumHead).length = 15 := rfl
      simp only [enumToks, List.length_append]
      omega
    have eqs : (actions.flatMap fun a => toks structHead ++ structToks (structOf a)) =
        ((actions.map structOf).flatMap fun s => toks structHead ++ structToks s) := by
      rw [List.flatMap_map]
    rw [eqs] at hn
    obtain ⟨n, rfl⟩ : ∃ k, n = k + 1 := ⟨n - 1, by omega⟩
    have h1 := readStructs_structs (actions.map structOf) n (subToks hs modules ++
      (enumToks (variantsOf actions modules) (handledOf actions modules) ++ ts)) (by
        intro s hs
        obtain ⟨a, ha, rfl⟩ := List.mem_map.1 hs
        exact structOf_named (h.1 a ha)) (subs_not_struct ..) (by omega)
    have h2 := readMods_subs hs modules n (enumToks (variantsOf actions modules) (handledOf actions modules) ++ ts) h.2 (by
      unfold enumToks
      simp only [List.append_assoc]
      rfl) (by omega)
    have h3 := readEnum_enum hv hh n ts (by omega)
    simp only [modToks, eqs, List.append_assoc] at h1 h2 ⊢
    rw [readMod, eat_append]
    simp only
    rw [h1]
    simp only
    rw [h2]
    simp only
    rw [h3]
    simp [modOf]
theorem readMods_subs (hs : List Tok) : ∀ (ms : List FlattenedModule) (n : Nat) (ts : List Tok), ModsNamed Name ms →
    eatText c!"pub mod" ts = none →
    (subToks hs ms).length + 1 ≤ n → readMods hs n (subToks hs ms ++ ts) = some (modsOf ms, ts)
  | _, 0, _, _, _, hn => by omega
  | [], n + 1, ts, _, ht, _ => by simp [subToks, readMods, ht, modsOf]
  | m :: ms, n + 1, ts, h, ht, hn => by
    simp only [ModsNamed] at h
    simp only [subToks, List.length_append, List.length_cons] at hn
    have h1 := readMod_mod hs m n (toks c!"}" ++ (subToks hs ms ++ ts)) h.2.2.1 (by omega)
    have h2 := readMods_subs hs ms n ts h.2.2.2 ht (by omega)
    simp only [subToks, List.append_assoc, List.cons_append] at h1 h2 ⊢
    rw [readMods, eatText_append]
    simp only
    rw [readName_name h.1]
    simp only
    rw [eatText_append]
    simp only
    rw [h1]
    simp only
    rw [eatText_append]
    simp only
    rw [h2]
    simp [modsOf]
end

end Wayfinder.Rust
