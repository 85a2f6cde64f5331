import Verif.Model.Build
import Verif.Model.Diff
/-!
# Model of `/repo/wayfinder-tests/build.rs`

The build script of the tests writes a file `cases.rs` with one test function for each entry of the directory `cases`
(`/repo/wayfinder-tests/src/lib.rs:11` includes it).  `goldenTest` is what such a function does.

Simplifications: names and paths are texts (`expect` on those that are not UTF-8 is not modelled); the order of the entries
is the one in which `read_dir` gives them; writing the file does not fail.
-/

namespace Wayfinder.Cases
open Diff

/-- An entry of the directory `cases`: `DirEntry::file_name` and `DirEntry::path`. -/
structure Entry where
  name : Str
  path : Str
deriving DecidableEq

/-- The lines from `build.rs:49-71`, between the paths and the end of the function. -/
def bodyText : Str :=
  c!"        let mut dest = vec![];\n" ++
  c!"        match wayfinder::parse::route_config(&routes) {\n" ++
  c!"            Ok(config) => wayfinder::gen::codegen(&mut dest, &config.1).unwrap(),\n" ++
  c!"            result => {\n" ++
  (c!"                wayfinder::parse::errors::show_errors(" ++ c!"&mut std::io::stderr(), &routes, result, \"\");\n") ++
  c!"                assert!(false);\n" ++
  c!"            }\n" ++
  c!"        }\n" ++
  (c!"        let actual = String::from_utf8(dest)" ++ c!".expect(\"result as utf8\");\n") ++
  c!"        diff::TestResult::new(rs, &actual).assert();\n"

/-- `build.rs:28-73`: the function for an entry. -/
def caseText (join : Str → Str → Str) (e : Entry) : Str :=
  c!"    #[test]\n" ++
  (c!"    fn test_" ++ e.name ++ c!"() {\n") ++
  (c!"        let routes = include_str!(\"" ++ join e.path c!"routes.routes" ++ c!"\");\n") ++
  (c!"        let rs = include_str!(\"" ++ join e.path c!"routes.rs" ++ c!"\");\n") ++
  bodyText ++
  c!"    }\n"

/-- `build.rs:23-79` `write_cases`. -/
def writeCases (join : Str → Str → Str) (entries : List Entry) : Str :=
  c!"#[cfg(test)]\n" ++ c!"mod test_cases {\n" ++ c!"    use super::diff;\n" ++
  (entries.map (caseText join)).flatten ++ c!"}\n"

/-- The function written by `build.rs:28-73`, for the texts of the two files: `route_config`, `codegen` and the comparison
of `diff.rs:14-25`.  Panics are failures of the test. -/
def goldenTest (w : Machine) (diffLines : Str → Str → List DiffOp) (routes rs : Str) : Run :=
  match routeConfig w.cfg routes with
  | .ok _ c =>
    match (codegenIn w c).fail with
    | some _ => ⟨[], .panicked⟩
    | none =>
      match fromUtf8 (encode (codegenIn w c).text) with
      | none => ⟨[], .panicked⟩
      | some actual =>
        match assertSame diffLines rs actual with
        | none => ⟨[], .returned⟩
        | some report => ⟨[.stderr report], .panicked⟩
  | result =>
    match showErrors w.dbg routes result [] with
    | none => ⟨[], .panicked⟩
    | some out => ⟨[.stderr out], .panicked⟩

end Wayfinder.Cases
