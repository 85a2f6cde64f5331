#!/usr/bin/env python3
"""Generate lean/Verif/Model/Goal.lean and lean/Verif/Model/CaseFiles.lean from checked-in generated files."""
import pathlib

def lit(s):
    return 'c!"' + s.replace('\\', '\\\\').replace('"', '\\"') + '"'

def chunks(s, n=40):
    return [s[k:k+n] for k in range(0, len(s), n)]

def line(l):
    if not l:
        return 'c!"\\n"'
    body = l.lstrip(' ')
    assert body and '\t' not in l and '\r' not in l and l.isascii()
    return f"textLine {len(l) - len(body)} (" + " ++ ".join(lit(x) for x in chunks(body)) + ")"

N = 40
def define(name, path, prefix):
    text = pathlib.Path("/repo/" + path).read_text()
    assert text.endswith("\n")
    ls = text[:-1].split("\n")
    o, names = [], []
    for k in range(0, len(ls), N):
        part = f"{prefix}{k//N + 1}"
        names.append(part)
        o += [f"/-- `{path}:{k+1}-{min(k+N, len(ls))}` -/", f"def {part} : List Str := [",
              ",\n".join("  " + line(l) for l in ls[k:k+N]) + "]", ""]
    return o + [f"/-- `{path}` -/", f"def {name} : Str :=", "  (" + " ++ ".join(names) + ").flatten", ""]

def short(name, path):
    ls = pathlib.Path("/repo/" + path).read_text()[:-1].split("\n")
    return [f"/-- `{path}` -/", f"def {name} : Str :=", "  " + " ++\n  ".join(lit(l)[:-1] + '\\n"' for l in ls), ""]

out = pathlib.Path("/verif/lean/Verif/Model")
o = ["import Verif.Model.Basic", "/-!", "# The file of wayfinder-goal (generated by `tools/mkgoal.py`)", "-/", "",
     "namespace Wayfinder", "",
     "/-- A line: its indentation and what follows. -/",
     "def textLine (n : Nat) (s : Str) : Str := List.replicate n ' ' ++ (s ++ c!\"\\n\")", "",
     "namespace Goal", ""]
o += define("text", "wayfinder-goal/src/routes.rs", "part")
o += short("source", "wayfinder-tests/cases/example/routes.routes")
o += ["end Goal", "end Wayfinder", ""]
(out/"Goal.lean").write_text("\n".join(o))

o = ["import Verif.Model.Goal", "/-!", "# The expected files of the golden tests (generated by `tools/mkgoal.py`)", "-/", "",
     "namespace Wayfinder.Cases", ""]
for n in ["commons", "example", "nesting"]:
    o += define(n + "Rs", f"wayfinder-tests/cases/{n}/routes.rs", n)
o += ["end Wayfinder.Cases", ""]
(out/"CaseFiles.lean").write_text("\n".join(o))
