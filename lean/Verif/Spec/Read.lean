import Verif.Spec.Lex
import Verif.Model.Rust
/-!
# Specification vocabulary: reading the emitted file

A reader for the generated Rust file: it takes tokens, and gives the declared modules and the statements
of `match_route` as they are written.  It knows nothing about the generator: names are as in the text,
and types of parameters are not inferred yet.
-/

namespace Wayfinder.Rust

/-- Accept the tokens `es`. -/
def eat : List Tok → List Tok → Option (List Tok)
  | [], ts => some ts
  | _ :: _, [] => none
  | e :: es, t :: ts => if e = t then eat es ts else none

/-- Accept the tokens of a text. -/
def eatText (s : Str) (ts : List Tok) : Option (List Tok) := eat (toks s) ts

/-- Words that are not names (edition 2018). -/
def keywords : List Str :=
  [c!"as", c!"break", c!"const", c!"continue", c!"crate", c!"else", c!"enum", c!"extern", c!"false", c!"fn",
   c!"for", c!"if", c!"impl", c!"in", c!"let", c!"loop", c!"match", c!"mod", c!"move", c!"mut", c!"pub",
   c!"ref", c!"return", c!"self", c!"Self", c!"static", c!"struct", c!"super", c!"trait", c!"true", c!"type",
   c!"unsafe", c!"use", c!"where", c!"while", c!"async", c!"await", c!"dyn", c!"abstract", c!"become",
   c!"box", c!"do", c!"final", c!"macro", c!"override", c!"priv", c!"typeof", c!"unsized", c!"virtual",
   c!"yield", c!"try", c!"_"]

/-- A word that is a name.  Names with characters beyond ASCII are not accepted (they were not allowed
when the crate was written). -/
def isName (s : Str) : Bool :=
  match s with
  | [] => false
  | c :: _ => !c.isDigit && !(keywords.contains s) && s.all fun c => decide (c.toNat < 128)

/-- A name: all its characters belong to words, and it is neither a keyword nor a number. -/
def Name (s : Str) : Prop := (∀ c ∈ s, isWordChar c = true) ∧ isName s = true

/-- A word: not empty, and all its characters belong to words. -/
def Word (s : Str) : Prop := s ≠ [] ∧ ∀ c ∈ s, isWordChar c = true

/-- Accept a name. -/
def readName : List Tok → Option (Str × List Tok)
  | .word x :: ts => if isName x then some (x, ts) else none
  | _ => none

/-- Accept a string. -/
def readStr : List Tok → Option (Str × List Tok)
  | .str false x :: ts => some (x, ts)
  | _ => none

/-- Accept a byte string without escape sequences. -/
def readBytes : List Tok → Option (Str × List Tok)
  | .str true x :: ts => if x.contains '\\' then none else some (x, ts)
  | _ => none

/-- A decimal number. -/
def readDigits (s : Str) : Nat := s.foldl (fun n c => 10 * n + (c.toNat - 48)) 0

/-- Accept a number. -/
def readNum : List Tok → Option (Nat × List Tok)
  | .word x :: ts => if x.all Char.isDigit && !x.isEmpty then some (readDigits x, ts) else none
  | _ => none

/-- Accept a path `a::b::c`. -/
def readPath : List Tok → Option (List Str × List Tok)
  | [] => none
  | [.word x] => if isName x then some ([x], []) else none
  | .word x :: t :: ts =>
    if isName x then
      if t = .op c!"::" then (readPath ts).map fun r => (x :: r.1, r.2) else some ([x], t :: ts)
    else none
  | _ :: _ => none

/-! ## Statements -/

/-- Values: enum constructors around a struct. -/
inductive Expr where
  /-- `path(arg)` -/
  | app (path : List Str) (arg : Expr)
  /-- `path { x, y: None, }`; the second component says whether it is `None` -/
  | struct (path : List Str) (fields : List (Str × Bool))
deriving DecidableEq

/-- `b"verb" => return Ok(Match::Route(value)),`, or `Match::Redirect`. -/
structure VerbArm where
  verb : Str
  isRedirect : Bool
  value : Expr
deriving DecidableEq

mutual
/-- Statements as written. -/
inductive Line where
  | letStart
  | addI (n : Nat)
  | retNotFound
  | ifThen (c : Cond) (body : List Line)
  | matchMethod (arms : List VerbArm)
  | matchPath (n : Nat) (arms : List PathArm)
  | whileScan
  | letText
  /-- `let name = text.parse().map_err(|e| Error::fail("label", e))?;` -/
  | letParam (name label : Str)
/-- Arms of a match on a piece of the path. -/
inductive PathArm where
  | bytes (pat : Str) (body : List Line)
  | wildNotFound
  | wildNothing
end

/-- The fields of a struct literal, up to the closing brace. -/
def readFields : List Tok → Option (List (Str × Bool) × List Tok)
  | .op ['}'] :: ts => some ([], ts)
  | .word x :: .op [','] :: ts =>
    if isName x then (readFields ts).map fun r => ((x, false) :: r.1, r.2) else none
  | .word x :: .op [':'] :: .word ['N', 'o', 'n', 'e'] :: .op [','] :: ts =>
    if isName x then (readFields ts).map fun r => ((x, true) :: r.1, r.2) else none
  | _ => none

/-- Accept a value. -/
def readExpr : Nat → List Tok → Option (Expr × List Tok)
  | 0, _ => none
  | n + 1, ts =>
    match readPath ts with
    | some (p, .op ['('] :: ts) =>
      match readExpr n ts with
      | some (e, .op [')'] :: ts) => some (.app p e, ts)
      | _ => none
    | some (p, .op ['{'] :: ts) => (readFields ts).map fun r => (.struct p r.1, r.2)
    | _ => none

/-- The kind of a match. -/
def readKind : List Tok → Option (Bool × List Tok)
  | .word x :: ts =>
    if x = c!"Route" then some (false, ts) else if x = c!"Redirect" then some (true, ts) else none
  | _ => none

/-- The arms of `match method`, up to the closing brace. -/
def readVerbArms : Nat → List Tok → Option (List VerbArm × List Tok)
  | 0, _ => none
  | n + 1, ts =>
    match eatText c!"_ => return Ok(Match::NotAllowed), }" ts with
    | some ts => some ([], ts)
    | none => do
      let (verb, ts) ← readBytes ts
      let ts ← eatText c!"=> return Ok(Match::" ts
      let (kind, ts) ← readKind ts
      let ts ← eatText c!"(" ts
      let (e, ts) ← readExpr n ts
      let ts ← eatText c!"))," ts
      let (arms, ts) ← readVerbArms n ts
      return (⟨verb, kind, e⟩ :: arms, ts)

/-- Accept a condition. -/
def readCond (ts : List Tok) : Option (Cond × List Tok) :=
  match eatText c!"i == len" ts with
  | some ts => some (.iEqLen, ts)
  | none =>
    match eatText c!"i <= len" ts with
    | some ts => some (.iLeLen, ts)
    | none => do
      let ts ← eatText c!"i +" ts
      let (n, ts) ← readNum ts
      match eatText c!"> len" ts with
      | some ts => return (.iAddGtLen n, ts)
      | none =>
        let ts ← eatText c!"<= len" ts
        return (.iAddLeLen n, ts)

/-- The statements that consist of fixed text. -/
def fixedLines : List (Str × Line) :=
  [(c!"let start = i;", .letStart),
   (c!"return Ok(Match::NotFound);", .retNotFound),
   (c!"while i < len && &path[i..i+1] != b\"/\" { i += 1; }", .whileScan),
   (c!"let text = std::str::from_utf8(&path[start..i]).unwrap();", .letText)]

/-- Accept one of several texts. -/
def readOneOf {α : Type} : List (Str × α) → List Tok → Option (α × List Tok)
  | [], _ => none
  | (s, a) :: alts, ts =>
    match eatText s ts with
    | some ts => some (a, ts)
    | none => readOneOf alts ts

/-- Accept `i += n;`. -/
def readAddI (ts : List Tok) : Option (Line × List Tok) := do
  let ts ← eatText c!"i +=" ts
  let (n, ts) ← readNum ts
  let ts ← eatText c!";" ts
  return (.addI n, ts)

/-- Accept the binding of a parameter. -/
def readLetParam (ts : List Tok) : Option (Line × List Tok) := do
  let ts ← eatText c!"let" ts
  let (x, ts) ← readName ts
  let ts ← eatText c!"= text.parse().map_err(|e| Error::fail(" ts
  let (label, ts) ← readStr ts
  let ts ← eatText c!", e))?;" ts
  return (.letParam x label, ts)

mutual
/-- The statements of a block, up to the closing brace. -/
def readBlock : Nat → List Tok → Option (List Line × List Tok)
  | 0, _ => none
  | n + 1, ts =>
    match eatText c!"}" ts with
    | some ts => some ([], ts)
    | none =>
      match readLine n ts with
      | none => none
      | some (s, ts) => (readBlock n ts).map fun r => (s :: r.1, r.2)
/-- Accept a statement. -/
def readLine : Nat → List Tok → Option (Line × List Tok)
  | 0, _ => none
  | n + 1, ts =>
    match readLetParam ts with
    | some r => some r
    | none =>
      match readOneOf fixedLines ts with
      | some r => some r
      | none =>
        match readAddI ts with
        | some r => some r
        | none =>
          match eatText c!"if" ts with
          | some ts =>
            match readCond ts with
            | none => none
            | some (c, ts) =>
              match eatText c!"{" ts with
              | none => none
              | some ts => (readBlock n ts).map fun r => (.ifThen c r.1, r.2)
          | none =>
            match eatText c!"match method {" ts with
            | some ts => (readVerbArms n ts).map fun r => (.matchMethod r.1, r.2)
            | none =>
              match eatText c!"match &path[i..i+" ts with
              | none => none
              | some ts =>
                match readNum ts with
                | none => none
                | some (k, ts) =>
                  match eatText c!"] {" ts with
                  | none => none
                  | some ts => (readArms n ts).map fun r => (.matchPath k r.1, r.2)
/-- The arms of a match on a piece of the path, up to the closing brace. -/
def readArms : Nat → List Tok → Option (List PathArm × List Tok)
  | 0, _ => none
  | n + 1, ts =>
    match eatText c!"}" ts with
    | some ts => some ([], ts)
    | none =>
      match eatText c!"_ => return Ok(Match::NotFound)," ts with
      | some ts => (readArms n ts).map fun r => (.wildNotFound :: r.1, r.2)
      | none =>
        match eatText c!"_ => {}," ts with
        | some ts => (readArms n ts).map fun r => (.wildNothing :: r.1, r.2)
        | none =>
          match readBytes ts with
          | none => none
          | some (pat, ts) =>
            match eatText c!"=> {" ts with
            | none => none
            | some ts =>
              match readBlock n ts with
              | none => none
              | some (body, ts) =>
                match eatText c!"," ts with
                | none => none
                | some ts => (readArms n ts).map fun r => (.bytes pat body :: r.1, r.2)
end

/-! ## Declarations -/

/-- A declared field: `pub name: typ,` or `pub name: Option<typ>,`. -/
structure Field where
  name : Str
  optional : Bool
  typ : Str
deriving DecidableEq

/-- A struct with its `to_path` method: `let Struct { ref a, ref b, } = self; format!("template", x, y)`. -/
structure Struct where
  name : Str
  fields : List Field
  bound : List Str
  template : Str
  args : List Str
deriving DecidableEq

/-- A module: structs, submodules, the variants of `Route` with the paths of their contents, and the
variants that `Route::to_path` handles. -/
inductive Mod where
  | mk (structs : List Struct) (subs : List (Str × Mod)) (variants : List (Str × List Str)) (handled : List Str)

/-- The type of a field and the comma. -/
def readType : List Tok → Option (Bool × Str × List Tok)
  | .word o :: .op ['<'] :: .word t :: .op ['>'] :: .op [','] :: ts =>
    if o = c!"Option" ∧ isName t then some (true, t, ts) else none
  | .word t :: .op [','] :: ts => if isName t then some (false, t, ts) else none
  | _ => none

/-- The fields of a declaration, up to the closing brace. -/
def readDeclFields : Nat → List Tok → Option (List Field × List Tok)
  | 0, _ => none
  | n + 1, ts =>
    match eatText c!"}" ts with
    | some ts => some ([], ts)
    | none => do
      let ts ← eatText c!"pub" ts
      let (x, ts) ← readName ts
      let ts ← eatText c!":" ts
      let (o, t, ts) ← readType ts
      let (fs, ts) ← readDeclFields n ts
      return (⟨x, o, t⟩ :: fs, ts)

/-- The body of a struct declaration. -/
def readStructBody (n : Nat) (ts : List Tok) : Option (List Field × List Tok) :=
  match eatText c!";" ts with
  | some ts => some ([], ts)
  | none => do
    let ts ← eatText c!"{" ts
    readDeclFields n ts

/-- `ref a, ref b, } = self;`. -/
def readBound : Nat → List Tok → Option (List Str × List Tok)
  | 0, _ => none
  | n + 1, ts =>
    match eatText c!"} = self;" ts with
    | some ts => some ([], ts)
    | none => do
      let ts ← eatText c!"ref" ts
      let (x, ts) ← readName ts
      let ts ← eatText c!"," ts
      let (xs, ts) ← readBound n ts
      return (x :: xs, ts)

/-- `let Struct { … } = self;`, if there is one. -/
def readLetSelf (n : Nat) (name : Str) (ts : List Tok) : Option (List Str × List Tok) :=
  match eatText c!"let" ts with
  | none => some ([], ts)
  | some ts => do
    let (x, ts) ← readName ts
    let ts ← eatText c!"{" ts
    if x = name then readBound n ts else none

/-- `, x, y)`. -/
def readArgs : Nat → List Tok → Option (List Str × List Tok)
  | 0, _ => none
  | n + 1, ts =>
    match eatText c!")" ts with
    | some ts => some ([], ts)
    | none => do
      let ts ← eatText c!"," ts
      let (x, ts) ← readName ts
      let (xs, ts) ← readArgs n ts
      return (x :: xs, ts)

/-- A struct after `pub struct`. -/
def readStruct (n : Nat) (ts : List Tok) : Option (Struct × List Tok) := do
  let (name, ts) ← readName ts
  let (fields, ts) ← readStructBody n ts
  let ts ← eatText c!"impl" ts
  let (name', ts) ← readName ts
  let ts ← eatText c!"{ pub fn to_path(&self) -> String {" ts
  let (bound, ts) ← readLetSelf n name ts
  let ts ← eatText c!"format!(" ts
  let (template, ts) ← readStr ts
  let (args, ts) ← readArgs n ts
  let ts ← eatText c!"} }" ts
  if name' = name then return (⟨name, fields, bound, template, args⟩, ts) else none

/-- The beginning of a struct. -/
def structHead : Str := c!"#[derive(Debug, PartialEq, Eq)] pub struct"

/-- The beginning of an enum. -/
def enumHead : Str := c!"#[derive(Debug, PartialEq, Eq)] pub enum Route {"

/-- The beginning of the implementation for an enum. -/
def enumMiddle : Str := c!"impl Route { pub fn to_path(&self) -> String { match self {"

/-- The structs at the beginning of a module. -/
def readStructs : Nat → List Tok → Option (List Struct × List Tok)
  | 0, _ => none
  | n + 1, ts =>
    match eatText structHead ts with
    | none => some ([], ts)
    | some ts => do
      let (s, ts) ← readStruct n ts
      let (ss, ts) ← readStructs n ts
      return (s :: ss, ts)

/-- The variants of an enum, up to the closing brace. -/
def readVariants : Nat → List Tok → Option (List (Str × List Str) × List Tok)
  | 0, _ => none
  | n + 1, ts =>
    match eatText c!"}" ts with
    | some ts => some ([], ts)
    | none => do
      let (x, ts) ← readName ts
      let ts ← eatText c!"(" ts
      let (p, ts) ← readPath ts
      let ts ← eatText c!")," ts
      let (vs, ts) ← readVariants n ts
      return ((x, p) :: vs, ts)

/-- The arms of `Route::to_path`, up to the closing brace. -/
def readHandled : Nat → List Tok → Option (List Str × List Tok)
  | 0, _ => none
  | n + 1, ts =>
    match eatText c!"}" ts with
    | some ts => some ([], ts)
    | none => do
      let ts ← eatText c!"Route::" ts
      let (x, ts) ← readName ts
      let ts ← eatText c!"(ref route) => route.to_path()," ts
      let (xs, ts) ← readHandled n ts
      return (x :: xs, ts)

/-- The enum `Route` and its `to_path` method. -/
def readEnum (n : Nat) (ts : List Tok) : Option (List (Str × List Str) × List Str × List Tok) := do
  let ts ← eatText enumHead ts
  let (variants, ts) ← readVariants n ts
  let ts ← eatText enumMiddle ts
  let (handled, ts) ← readHandled n ts
  let ts ← eatText c!"} }" ts
  return (variants, handled, ts)

mutual
/-- The contents of a module, which begin with the tokens `headers`. -/
def readMod (headers : List Tok) : Nat → List Tok → Option (Mod × List Tok)
  | 0, _ => none
  | n + 1, ts =>
    match eat headers ts with
    | none => none
    | some ts =>
      match readStructs n ts with
      | none => none
      | some (structs, ts) =>
        match readMods headers n ts with
        | none => none
        | some (subs, ts) =>
          (readEnum n ts).map fun r => (.mk structs subs r.1 r.2.1, r.2.2)
/-- The submodules of a module. -/
def readMods (headers : List Tok) : Nat → List Tok → Option (List (Str × Mod) × List Tok)
  | 0, _ => none
  | n + 1, ts =>
    match eatText c!"pub mod" ts with
    | none => some ([], ts)
    | some ts =>
      match readName ts with
      | none => none
      | some (x, ts) =>
        match eatText c!"{" ts with
        | none => none
        | some ts =>
          match readMod headers n ts with
          | none => none
          | some (m, ts) =>
            match eatText c!"}" ts with
            | none => none
            | some ts => (readMods headers n ts).map fun r => ((x, m) :: r.1, r.2)
end

/-! ## The file -/

/-- The beginning of the file. -/
def fileHead : Str :=
  c!"pub mod routes { #![allow(dead_code)] #![allow(unused_imports)] #![allow(unused_mut)] #![allow(unused_variables)]"

/-- The items between the modules and `match_route`. -/
def fixedItems : Str :=
  c!"#[derive(PartialEq, Eq)] pub enum Match<T> { NotFound, NotAllowed, Route(T), Redirect(T), } use std::fmt; impl<T: fmt::Debug> fmt::Debug for Match<T> { fn fmt(&self, f: &mut fmt::Formatter) -> fmt::Result { match self { Match::NotFound => write!(f, \"Match::NotFound\"), Match::NotAllowed => write!(f, \"Match::NotAllowed\"), Match::Route(t) => write!(f, \"Match::Route({:?})\", t), Match::Redirect(t) => write!(f, \"Match::Redirect({:?})\", t), } } } pub struct Error { param: String, what: Box<dyn fmt::Debug>, } impl fmt::Debug for Error { fn fmt(&self, f: &mut fmt::Formatter) -> fmt::Result { f.debug_struct(\"wayfinder::Error\").field(\"param\", &self.param).field(\"what\", &self.what).finish() } } impl fmt::Display for Error { fn fmt(&self, f: &mut fmt::Formatter) -> fmt::Result { write!(f, \"Error parsing '{}' parameter {:?}\", self.param, self.what) } } impl std::error::Error for Error {} impl Error { pub fn fail<S: AsRef<str>, T: fmt::Debug + 'static>(param: S, what: T) -> Error { Error { param: param.as_ref().to_string(), what: Box::new(what), } } }"

/-- The head of `match_route`: its locals are `method`, `path`, `len` and the mutable `i`, which skips one
leading `/`. -/
def functionHead : Str :=
  c!"pub fn match_route<P: AsRef<[u8]>, M: AsRef<[u8]>>(path: P, method: M,) -> Result<Match<Route>, Error> { let method = method.as_ref(); let path = path.as_ref(); let len = path.len(); let mut i = if len > 0 && &path[0..1] == b\"/\" { 1 } else { 0 };"

/-- Read the file: the declarations and the statements of `match_route` after its head. -/
def readFile (headers : List Tok) (ts : List Tok) : Option (Mod × List Line) := do
  let n := ts.length + 1
  let ts ← eatText fileHead ts
  let (m, ts) ← readMod headers n ts
  let ts ← eatText fixedItems ts
  let ts ← eatText functionHead ts
  let (body, ts) ← readBlock n ts
  if ts = toks c!"}" then return (m, body) else none

end Wayfinder.Rust
