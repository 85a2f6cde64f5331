import Verif.Model.Cases
import Verif.Spec.Lex
/-!
# Specification vocabulary: a file of golden tests as a Rust program

A reader for files of the form that the build script of the tests writes, and what `cargo test` does with them.
-/

namespace Wayfinder.Cases
open Rust Diff

/-- A statement of a test function. -/
inductive Step where
  /-- `let mut dest = vec![];` -/
  | newDest
  /-- a `match` on the parsed route file: code is generated into `dest`, or the errors are shown (or not) and the test fails (or not) -/
  | generate (shows fails : Bool)
  /-- `let actual = String::from_utf8(dest).expect(…);` -/
  | decode
  /-- the comparison of `rs` and `actual`, asserted or not -/
  | compare (asserted : Bool)
deriving DecidableEq

/-- The test function `name` with the texts of the files `routes` and `rs`. -/
structure Golden where
  name : Str
  routes : Str
  rs : Str
  steps : List Step
deriving DecidableEq

/-- Given tokens are next. -/
def expect : List Tok → List Tok → Option (List Tok)
  | [], ts => some ts
  | a :: as, t :: ts => if a = t then expect as ts else none
  | _ :: _, [] => none

/-- Whether given tokens are next. -/
def given (as ts : List Tok) : Bool × List Tok :=
  match expect as ts with
  | some ts => (true, ts)
  | none => (false, ts)

/-- A string literal is next. -/
def expectStr : List Tok → Option (Str × List Tok)
  | .str false s :: ts => some (s, ts)
  | _ => none

/-- A word is next. -/
def expectWord : List Tok → Option (Str × List Tok)
  | .word s :: ts => some (s, ts)
  | _ => none

/-- The statement that shows the errors. -/
def showText : Str := c!"wayfinder::parse::errors::show_errors(&mut std::io" ++ c!"::stderr(), &routes, result, \"\");"

/-- The head of the `match`, with the arm for parsed files. -/
def matchText : Str := c!"match wayfinder::parse::route_config(&routes) { " ++
  c!"Ok(config) => wayfinder::gen::codegen(&mut dest," ++ c!" &config.1).unwrap(), result => {"

/-- A statement is next. -/
def readStep : List Tok → Option (Step × List Tok)
  | .word ['m', 'a', 't', 'c', 'h'] :: ts => do
    let ts ← expect (toks matchText) (.word c!"match" :: ts)
    let (shows, ts) := given (toks showText) ts
    let (fails, ts) := given (toks c!"assert!(false);") ts
    let ts ← expect (toks c!"} }") ts
    return (.generate shows fails, ts)
  | .word ['d', 'i', 'f', 'f'] :: ts => do
    let ts ← expect (toks c!"diff::TestResult::new(rs, &actual)") (.word c!"diff" :: ts)
    let (asserted, ts) := given (toks c!".assert()") ts
    let ts ← expect (toks c!";") ts
    return (.compare asserted, ts)
  | .word ['l', 'e', 't'] :: .word ['m', 'u', 't'] :: ts => do
    let ts ← expect (toks c!"dest = vec![];") ts
    return (.newDest, ts)
  | .word ['l', 'e', 't'] :: ts => do
    let ts ← expect (toks c!"actual = String::from_utf8(dest).expect(\"result as utf8\");") ts
    return (.decode, ts)
  | _ => none

/-- Statements until the end of a block; the number bounds how many. -/
def readSteps : Nat → List Tok → Option (List Step × List Tok)
  | 0, _ => none
  | n + 1, ts =>
    match expect (toks c!"}") ts with
    | some ts => some ([], ts)
    | none => do
      let (s, ts) ← readStep ts
      let (ss, ts) ← readSteps n ts
      return (s :: ss, ts)

/-- A test function is next. -/
def readGolden (ts : List Tok) : Option (Golden × List Tok) := do
  let ts ← expect (toks c!"#[test] fn") ts
  let (name, ts) ← expectWord ts
  let ts ← expect (toks c!"() { let routes = include_str!(") ts
  let (routes, ts) ← expectStr ts
  let ts ← expect (toks c!"); let rs = include_str!(") ts
  let (rs, ts) ← expectStr ts
  let ts ← expect (toks c!");") ts
  let (steps, ts) ← readSteps (ts.length + 1) ts
  return (⟨name, routes, rs, steps⟩, ts)

/-- Test functions until the end of the module; the number bounds how many. -/
def readGoldens : Nat → List Tok → Option (List Golden)
  | 0, _ => none
  | n + 1, ts =>
    if ts = toks c!"}" then some []
    else do
      let (g, ts) ← readGolden ts
      let gs ← readGoldens n ts
      return g :: gs

/-- A file of golden tests. -/
def readFile (text : Str) : Option (List Golden) := do
  let ts ← lex text
  let ts' ← expect (toks c!"#[cfg(test)] mod test_cases { use super::diff;") ts
  readGoldens (ts'.length + 1) ts'

/-- What the statements of a test function do, where `dest` and `actual` are the values of these variables, if they are declared: the
output, and how the function ends.  There is no result if rustc rejects the function. -/
def runSteps (w : Machine) (diffLines : Str → Str → List DiffOp) (routes rs : Str) :
    List Step → (dest : Option Bytes) → (actual : Option Str) → Option Run
  | [], _, _ => some ⟨[], .returned⟩
  | .newDest :: ss, _, actual => runSteps w diffLines routes rs ss (some []) actual
  | .generate shows fails :: ss, some dest, actual =>
    match routeConfig w.cfg routes with
    | .ok _ c =>
      match (codegenIn w c).fail with
      | some _ => some ⟨[], .panicked⟩
      | none => runSteps w diffLines routes rs ss (some (dest ++ encode (codegenIn w c).text)) actual
    | result =>
      match if shows then (showErrors w.dbg routes result []).map fun out => [Event.stderr out] else some [] with
      | none => some ⟨[], .panicked⟩
      | some out =>
        if fails then some ⟨out, .panicked⟩
        else (runSteps w diffLines routes rs ss (some dest) actual).map fun r => ⟨out ++ r.events, r.ending⟩
  | .decode :: ss, some dest, _ =>
    match fromUtf8 dest with
    | none => some ⟨[], .panicked⟩
    | some text => runSteps w diffLines routes rs ss none (some text)
  | .compare asserted :: ss, dest, some actual =>
    match if asserted then assertSame diffLines rs actual else none with
    | none => runSteps w diffLines routes rs ss dest (some actual)
    | some report => some ⟨[.stderr report], .panicked⟩
  | _ :: _, _, _ => none

/-- The tests that `cargo test` runs, and what they do.  rustc rejects two functions of the same name, and an `include_str!` of
a file that cannot be read. -/
def cargoTest (w : Machine) (diffLines : Str → Str → List DiffOp) (text : Str) : Option (List (Str × Run)) := do
  let gs ← readFile text
  if (gs.map Golden.name).Nodup then
    gs.mapM fun g => do
      let routes ← w.read g.routes
      let rs ← w.read g.rs
      let run ← runSteps w diffLines routes rs g.steps none none
      return (g.name, run)
  else none

/-- Entries for which the script writes a readable function: the name has only characters of words, and the two paths
only ASCII characters that stand for themselves in a string literal. -/
def Entry.Plain (join : Str → Str → Str) (e : Entry) : Prop :=
  (∀ c ∈ e.name, isWordChar c = true) ∧ (∀ c ∈ join e.path c!"routes.routes", textChar c = true) ∧
  (∀ c ∈ join e.path c!"routes.rs", textChar c = true)

/-- The test that belongs to an entry. -/
def Entry.golden (join : Str → Str → Str) (e : Entry) : Golden :=
  ⟨c!"test_" ++ e.name, join e.path c!"routes.routes", join e.path c!"routes.rs",
    [.newDest, .generate true true, .decode, .compare true]⟩

end Wayfinder.Cases
