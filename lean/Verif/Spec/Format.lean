import Verif.Spec.Elab
/-!
# Specification vocabulary: files that have been through rustfmt

Apart from blanks, rustfmt changes three things in a generated file.  An arm `pattern => value,` whose value does not fit on its line
becomes `pattern => { value }`; the comma after an arm with a block is dropped; and commas at the end of lists are added where the list
is broken into lines and dropped where it is not.  `canon` undoes these changes, which rustc does not distinguish.
-/

namespace Wayfinder.Rust

/-- What an opening brace belongs to. -/
inductive Brace where
  /-- the block of an arm -/
  | arm
  /-- a block that rustfmt has put around the value of an arm -/
  | wrapped
  /-- a brace after a name -/
  | named
  | other
deriving DecidableEq, Repr

/-- What has been read and is not decided yet. -/
inductive Held where
  | nothing
  /-- an opening brace after `=>` -/
  | brace
  /-- the end of an arm: there may be a comma -/
  | armEnd
  /-- the end of a brace after a name: there may be a comma -/
  | listEnd
  /-- such a comma -/
  | comma
deriving DecidableEq, Repr

/-- The open braces, the last token, and what is not decided. -/
structure Layout where
  braces : List Brace
  prev : Tok
  held : Held
deriving DecidableEq, Repr

/-- Is this a name? -/
def Tok.named : Tok → Bool
  | .word x => isName x
  | _ => false

/-- Is this a word? -/
def Tok.isWord : Tok → Bool
  | .word _ => true
  | _ => false

/-- The next token, if everything before is decided. -/
def Layout.put (l : Layout) (t : Tok) : List Tok × Layout :=
  if t = .op ['{'] then
    if l.prev = .op c!"=>" then ([], { l with held := .brace })
    else ([t], ⟨(if l.prev.named then .named else .other) :: l.braces, t, .nothing⟩)
  else if t = .op ['}'] then
    match l.braces with
    | .arm :: bs => ([t, .op [',']], ⟨bs, .op [','], .armEnd⟩)
    | .wrapped :: bs => ([.op [',']], ⟨bs, .op [','], .armEnd⟩)
    | .named :: bs => ((if l.prev.isWord then [.op [',']] else []) ++ [t], ⟨bs, t, .listEnd⟩)
    | .other :: bs => ([t], ⟨bs, t, .nothing⟩)
    | [] => ([t], ⟨[], t, .nothing⟩)
  else ([t], ⟨l.braces, t, .nothing⟩)

/-- The next token. -/
def Layout.step (l : Layout) (t : Tok) : List Tok × Layout :=
  match l.held with
  | .nothing => l.put t
  | .brace =>
    if t = .word c!"return" then ([t], ⟨.wrapped :: l.braces, t, .nothing⟩)
    else (.op ['{'] :: (Layout.put ⟨.arm :: l.braces, .op ['{'], .nothing⟩ t).1, (Layout.put ⟨.arm :: l.braces, .op ['{'], .nothing⟩ t).2)
  | .armEnd => if t = .op [','] then ([], { l with held := .nothing }) else l.put t
  | .listEnd => if t = .op [','] then ([], { l with held := .comma }) else l.put t
  | .comma =>
    if t = .op [')'] then l.put t
    else (.op [','] :: (Layout.put ⟨l.braces, .op [','], .nothing⟩ t).1, (Layout.put ⟨l.braces, .op [','], .nothing⟩ t).2)

/-- The end of the file. -/
def Layout.flush (l : Layout) : List Tok :=
  match l.held with
  | .brace => [.op ['{']]
  | .comma => [.op [',']]
  | _ => []

/-- Undo the changes from some place on. -/
def canonFrom (l : Layout) : List Tok → List Tok
  | [] => l.flush
  | t :: ts => (l.step t).1 ++ canonFrom (l.step t).2 ts

/-- Undo the changes of rustfmt. -/
def canon (ts : List Tok) : List Tok := canonFrom ⟨[], .op [], .nothing⟩ ts

/-- A token other than commas and braces. -/
def Tok.solid (t : Tok) : Bool := t ≠ .op [','] ∧ t ≠ .op ['{'] ∧ t ≠ .op ['}']

/-- The declarations and the statements of `match_route` of a file that has been through rustfmt. -/
def readFormatted (headers : List Tok) (text : Str) : Option (Mod × List Stmt) := do
  let ts ← lex text
  let (m, lines) ← readFile headers (canon ts)
  let body ← elabBlock m lines
  if m.ok true && compiles body then return (m, body) else none

/-- A call of the `match_route` of such a file. -/
def callFormatted (W : World) (headers : List Tok) (text : Str) (path method : Bytes) : Outcome W :=
  match readFormatted headers text with
  | none => .rejected
  | some (_, body) => callMatchRoute W body path method

end Wayfinder.Rust
