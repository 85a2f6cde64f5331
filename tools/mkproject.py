#!/usr/bin/env python3
"""Write lean/Verif/Tests/Project.lean: the project's own tests, run on the model."""
import re

out = []
out.append('''import Verif.Tests.Demo
import Verif.Tests.Golden
import Verif.Model.Macros
import Verif.Spec.Lex
/-!
# The project's own tests, run on the model (generated by `tools/mkproject.py`)

`/repo/examples/cli/src/main.rs:66-266` (requests to the matcher of `/repo/example.routes`) and
`/repo/wayfinder-tests/src/lib.rs` (printing and parsing), the documentation tests of
`/repo/wayfinder/src/core/macros.rs` and the test of `/repo/wayfinder/src/gen/trie.rs`.  These are tests of the fidelity of the model, not
proofs.
-/

namespace Wayfinder.Tests

/-- `/repo/example.routes` -/
def cliSrc : String :=
  "%s"

/-- The body generated for `/repo/example.routes`. -/
def exampleBody : List Stmt :=
  match routeConfig (testCfg false) cliSrc.toList with
  | .ok _ c => bodyOf c.routes
  | _ => []

/-- A request to it. -/
def askExample (path m : String) : Demo.Shown :=
  Demo.shown (callMatchRoute Demo.world exampleBody (bytesOf path.toList) (bytesOf m.toList))

''' % open('/repo/example.routes').read().replace('\n', '\\n'))
src = open('/repo/examples/cli/src/main.rs').read()
src = src[src.index('fn test_cases'):src.index('fn test_routes')]
cases = re.findall(r'\(\s*"([^"]*)",\s*wayfinder::Method::(\w+),\s*Match::(NotFound|NotAllowed|Route|Redirect)(.*?)\s*,?\s*\)(?=,|\s*\])', src, re.S)
pos = 0
n = 0
for m in re.finditer(r'"(/?[^"]*)",\s*wayfinder::Method::(\w+),\s*Match::(\w+)', src):
    path, verb, kind = m.groups()
    rest = src[m.end():]
    if kind in ('NotFound', 'NotAllowed'):
        exp = '.' + kind[0].lower() + kind[1:]
    else:
        t = re.match(r'\(routes::Route::(\w+)\(routes::\w+::Route::(\w+)\(\s*routes::(\w+)::(\w+)\s*\{(.*?)\}', rest, re.S)
        mod, variant, snake, struct, fields = t.groups()
        assert variant == struct and snake == mod.lower()
        fs = [f.strip() for f in fields.split(',') if f.strip()]
        nones = [f.split(':')[0] for f in fs if f.endswith('None')]
        params = [f for f in fs if not f.endswith('None')]
        ps = ', '.join('(c!"%s", c!"12345678901234567890123456789012")' % p for p in params)
        ns = ', '.join('c!"%s"' % p for p in nones)
        exp = '.%s [c!"%s"] c!"%s" [%s] [%s]' % (kind.lower(), mod, struct, ps, ns)
    out.append('#guard askExample "%s" "%s" = %s\n' % (path, verb.upper(), exp))
    n += 1
print(n, 'requests')

lib = open('/repo/wayfinder-tests/src/lib.rs').read()

# rust values -> lean
def lean(v):
    v = v.strip()
    toks = re.findall(r'"(?:[^"\\]|\\.)*"|[A-Za-z_][A-Za-z_0-9]*(?:::[A-Za-z_]+)*!?|[{}\[\]():,.]', v)
    i = 0
    def peek(): return toks[i] if i < len(toks) else None
    def eat(t):
        nonlocal i
        assert toks[i] == t, (toks[i-3:i+3], t)
        i += 1
    def value():
        nonlocal i
        t = toks[i]; i += 1
        if t.startswith('"'):
            while peek() == '.':
                i += 1
                assert toks[i] == 'to_string'; i += 1
                eat('('); eat(')')
            return 'c!' + t
        if t == 'vec!':
            eat('[')
            xs = []
            while peek() != ']':
                xs.append(value())
                if peek() == ',': eat(',')
            eat(']')
            return '[' + ', '.join(xs) + ']'
        if t in ('true', 'false'): return t
        if t.startswith('Method::'): return '.' + t[8:].lower()
        if t == 'Param::new':
            eat('('); a = value(); eat(','); b = value(); eat(')')
            return '⟨%s, %s⟩' % (a, b)
        if t == 'PathSegment::from':
            eat('(')
            dyn = not peek().startswith('"')
            a = value(); eat(')')
            return '(.dynamic %s)' % a if dyn else '(.static %s)' % a
        if t in ('Resource', 'Routes', 'NestedRoutes', 'RouteConfig', 'Header'):
            eat('{')
            d = {}
            while peek() != '}':
                k = toks[i]; i += 1
                eat(':'); d[k] = value()
                if peek() == ',': eat(',')
            eat('}')
            if t == 'Header': return '⟨%s⟩' % d['text']
            if t == 'Resource': return '⟨%s, %s, %s, %s, %s⟩' % (d['method'], d['modules'], d['name'], d['is_redirect'], d['query_parameters'])
            if t == 'Routes': return '(.mk %s %s %s)' % (d['resources'], d['routes'], d['query_parameters'])
            if t == 'NestedRoutes': return '(.mk %s %s)' % (d['path_segment'], d['routes'])
            if t == 'RouteConfig': return '⟨%s, %s⟩' % (d['headers'], d['routes'])
        raise Exception(t)
    r = value()
    return r, i, toks

def cases_of(fn):
    s = lib[lib.index('fn %s()' % fn):]
    s = s[s.index('vec![') + 5:]
    # match brackets outside strings
    depth = 1; j = 0; instr = False
    while depth:
        c = s[j]
        if instr:
            if c == '\\': j += 1
            elif c == '"': instr = False
        elif c == '"': instr = True
        elif c in '[({': depth += 1
        elif c in '])}': depth -= 1
        j += 1
    s = s[:j-1]
    # split top level tuples
    res = []; depth = 0; instr = False; start = None; j = 0; comma = None
    while j < len(s):
        c = s[j]
        if instr:
            if c == '\\': j += 1
            elif c == '"': instr = False
        elif c == '"': instr = True
        elif c in '[({':
            depth += 1
            if depth == 1: start = j + 1
        elif c in '])}':
            depth -= 1
            if depth == 0: res.append((s[start:comma], s[comma+1:j].strip().rstrip(',').strip())) if s[comma+1:j].strip() else res.append((s[start:prev], s[prev+1:comma].strip()))
        elif c == ',' and depth == 1:
            prev, comma = comma, j
        j += 1
    return res

def text(t): return t.replace('\n', '\\n')

out.append('''
deriving instance BEq for Header, Param, PathSegment, Method, Resource
deriving instance BEq for Routes, NestedRoutes
deriving instance BEq for RouteConfig

/-- The outcome of a parser of the model, in both variants of nom, is `v` with the rest `rest`. -/
def parses {α : Type} [BEq α] (p : ParseCfg → Parser α) (text : Str) (v : α) (rest : Str) : Bool :=
  [false, true].all fun b => match p (testCfg b) text with
    | .ok i x => x == v && i == rest
    | _ => false

/-- The text moved two blanks to the right, as in the tests. -/
def moved (text : Str) : Str := c!"  " ++ text.flatMap fun c => if c = '\\n' then c!"\\n  " else [c]

''')
T = {'get_param_cases': 'Param', 'get_resource_cases': 'Resource', 'get_routes_cases': 'Routes',
     'get_nested_routes_cases': 'NestedRoutes', 'get_route_config_cases': 'RouteConfig'}
k = 0
for f, t in T.items():
    for a, b in cases_of(f):
        v = '(%s : %s)' % (lean(a)[0], t)
        b = b.replace('\n', '\\n')
        L = b + '.toList'
        if t == 'Param':
            out.append('#guard %s.display = %s\n' % (v, L))
            out.append('#guard (PathSegment.dynamic %s).display = %s\n' % (v, L))
            out.append('#guard parses pParam %s %s []\n' % (L, v))
            out.append('#guard parses (pPathSegment · 1) (c!"  {" ++ %s ++ c!"}") (PathSegment.dynamic %s) []\n' % (L, v))
            out.append('#guard parses (pQueryParameter · 1) (c!"  [" ++ %s ++ c!"]") %s []\n' % (L, v))
        elif t == 'RouteConfig':
            out.append('#guard %s.stringify = %s\n' % (v, L))
            out.append('#guard parses routeConfig %s %s []\n' % (L, v))
        else:
            out.append('#guard %s.stringify 0 = %s\n' % (v, L))
            par = {'Resource': '(pResource · 1)', 'Routes': '(pRoutes · 1)', 'NestedRoutes': '(fun cfg => pNestedRoutes cfg 100 1)'}[t]
            out.append('#guard parses %s (moved %s) %s c!"  "\n' % (par, L, v))
        k += 1
for m, b in re.findall(r'\(Method::(\w+), "(\w+)"\)', lib):
    out.append('#guard Method.%s.display = c!"%s"\n' % (m.lower(), b))
    out.append('#guard parses pMethod c!"%s" Method.%s []\n' % (b, m.lower()))
    k += 1
for s in re.findall(r'\(PathSegment::from\("(\w+)"\), "(\w+)"\)', lib):
    out.append('#guard (PathSegment.static c!"%s").display = c!"%s"\n' % s)
    out.append('#guard parses (pPathSegment · 1) c!"  %s" (PathSegment.static c!"%s") []\n' % (s[1], s[0]))
    k += 1
# The documentation tests of the macros (`/repo/wayfinder/src/core/macros.rs`) and the test of the trie.
mac = open('/repo/wayfinder/src/core/macros.rs').read()
for inp, meth, mods, name, red, qs in re.findall(r'/// let \w+ = \w+!\((.*)\);\n/// # assert_eq!\(\w+, Resource \{\n/// #     method: Method::(\w+),\n/// #     modules: vec!\[(.*)\],\n/// #     name: "(\w+)".to_string\(\),\n/// #     is_redirect: (\w+),\n/// #     query_parameters: vec!\[(.*)\],', mac):
    ms = ', '.join('c!"%s"' % m for m in re.findall(r'"(\w+)"', mods))
    ps = ', '.join('⟨c!"%s", c!"%s"⟩' % q for q in re.findall(r'param!\((\w+): (\w+)\)', qs))
    out.append('#guard verbMacro .%s (Rust.toks c!"%s") = some ⟨.%s, [%s], c!"%s", %s, [%s]⟩\n' % (meth.lower(), inp, meth.lower(), ms, name, red, ps))
    k += 1
for inp, a, b in re.findall(r'/// let \w+ = param!\((.*)\);\n/// # assert_eq!\(\w+, Param::new\("(\w+)", "(\w+)"\)\);', mac):
    out.append('#guard paramMacro (Rust.toks c!"%s") = some ⟨c!"%s", c!"%s"⟩\n' % (inp, a, b))
    k += 1
tr = open('/repo/wayfinder/src/gen/trie.rs').read()
(a, x), (b, y) = re.findall(r't\.add\("(\w+)"\.chars\(\), (\d+)\)', tr)
out.append('#guard ((Trie.add Charlike.cmp Trie.new (c!"%s".map Charlike.static) %s).toOption.bind fun t => (t.add Charlike.cmp (c!"%s".map Charlike.static) %s).toOption).isSome\n' % (a, x, b, y))
k += 1
print(k, 'values')
open('/verif/lean/Verif/Tests/Project.lean', 'w').write(''.join(out) + '\nend Wayfinder.Tests\n')
