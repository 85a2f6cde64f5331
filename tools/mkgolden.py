#!/usr/bin/env python3
"""Generate lean/Verif/Tests/Golden.lean from the golden files of the repository."""
import json, pathlib
base = pathlib.Path("/repo/wayfinder-tests/cases")
def lit(s):
    out = ['"']
    for ch in s:
        if ch == '"': out.append('\\"')
        elif ch == '\\': out.append('\\\\')
        elif ch == '\n': out.append('\\n')
        elif ch == '\t': out.append('\\t')
        else: out.append(ch)
    return ''.join(out) + '"'
o = ["import Verif.Model.Gen", "import Verif.Model.Parse", "/-!",
"# Golden tests (generated by `tools/mkgolden.py`)", "",
"The model, run on the configurations in `/repo/wayfinder-tests/cases`, produces byte for byte the",
"`routes.rs` files checked in there.  These are tests of the fidelity of the model, not proofs.",
"-/", "", "namespace Wayfinder.Tests", "",
"/-- Configuration used in tests: no non-ASCII identifier characters. -/",
"def testCfg (altFail : Bool) : ParseCfg := ⟨fun _ => false, altFail, altFail⟩", "",
"/-- Parse and generate. -/",
"def pipeline (altFail : Bool) (s : String) : Option (String × Option GenFail) :=",
"  match routeConfig (testCfg altFail) s.toList with",
"  | .ok _ c => let o := codegen c; some (String.ofList o.text, o.fail)",
"  | _ => none", ""]
for n in ["commons", "example", "nesting"]:
    src = (base/n/"routes.routes").read_text(); dst = (base/n/"routes.rs").read_text()
    o += [f"/-- `/repo/wayfinder-tests/cases/{n}/routes.routes` -/", f"def {n}Src : String :=", "  " + lit(src), "",
          f"/-- `/repo/wayfinder-tests/cases/{n}/routes.rs` -/", f"def {n}Out : String :=", "  " + lit(dst), "",
          f"#guard pipeline false {n}Src == some ({n}Out, none)", f"#guard pipeline true {n}Src == some ({n}Out, none)", ""]
o += ["end Wayfinder.Tests", ""]
p = pathlib.Path("/verif/lean/Verif/Tests"); p.mkdir(exist_ok=True)
(p/"Golden.lean").write_text("\n".join(o))
