import Verif.Model.Core
import Verif.Model.Names
/-!
# The subset of Rust emitted for the body of `match_route`

The generator (`/repo/wayfinder/src/gen/gen.rs:474-810`) writes Rust source text.  The model
emits syntax trees; this file gives the trees, the exact text of each tree (`render…`, matching
the `writeln!` calls) and their meaning (`exec…`, the Rust semantics of those statement forms).

Two things the generator can write are not Rust of the right type: an arm `Some('/') => {}` in a
match on byte slices (`gen.rs:692`), and statements in arm position (`gen.rs:685`).  They are
explicit nodes; `compiles` is the part of rustc's checking that is modelled.
-/

namespace Wayfinder

/-- Conditions used by emitted `if`s. -/
inductive Cond where
  /-- `i == len` (`gen.rs:511,548,668,713`) -/
  | iEqLen
  /-- `i + n > len` (`gen.rs:550`) -/
  | iAddGtLen (n : Nat)
  /-- `i <= len` (`gen.rs:641`) -/
  | iLeLen
  /-- `i + n <= len` (`gen.rs:643`) -/
  | iAddLeLen (n : Nat)
deriving DecidableEq, Repr

/-- One arm of an emitted `match method` (`gen.rs:716-755`):
`b"VERB" => return Ok(Match::KIND(…Struct { captures…, nones… })),`.
`captures` are the fields written `name,` (with the declared type of the struct field, which is
not part of the text), `nones` those written `name: None,`. -/
structure MethodArm where
  method : Method
  isRedirect : Bool
  modules : List Str
  name : Str
  captures : List Param
  nones : List Str
deriving DecidableEq, Repr

mutual
/-- Emitted statements. -/
inductive Stmt where
  /-- an empty line -/
  | blank
  /-- `let start = i;` -/
  | letStart
  /-- `i += n;` -/
  | addI (n : Nat)
  /-- `return Ok(Match::NotFound);` -/
  | retNotFound
  /-- `if c { body }` -/
  | ifThen (c : Cond) (body : List Stmt)
  /-- `match method { arms _ => return Ok(Match::NotAllowed), }` -/
  | matchMethod (arms : List MethodArm)
  /-- `match &path[i..i+n] { arms }` -/
  | matchPath (n : Nat) (arms : List Arm)
  /-- `while i < len && &path[i..i+1] != b"/" { i += 1; }` -/
  | whileScan
  /-- `let text = std::str::from_utf8(&path[start..i]).unwrap();` -/
  | letText
  /-- `let NAME = text.parse().map_err(|e| Error::fail("NAME", e))?;`.  `typ` is the type rustc
  infers for the variable from its uses (`none`: no use, inference fails). -/
  | letParam (name : Str) (typ : Option Str)
/-- Arms of emitted `match &path[…]`. -/
inductive Arm where
  /-- `b"pat" => { body },` -/
  | bytes (pat : Str) (body : List Stmt)
  /-- `_ => return Ok(Match::NotFound),` -/
  | wildNotFound
  /-- `_ => {},` -/
  | wildNothing
  /-- `Some('/') => {}` (`gen.rs:692`) – ill-typed -/
  | someSlash
  /-- statements in arm position (`gen.rs:685`) – not Rust syntax -/
  | stray (body : List Stmt)
end

/-! ## Text -/

/-- Four spaces per level (`gen.rs:482-487`). -/
def ind : Nat → Str
  | 0 => []
  | k + 1 => c!"    " ++ ind k

/-- Decimal digits of a number, as printed by `{}`. -/
def natStr (n : Nat) : Str := (Nat.repr n).toList

/-- Source text of a condition. -/
def Cond.render : Cond → Str
  | .iEqLen => c!"i == len"
  | .iAddGtLen n => c!"i + " ++ natStr n ++ c!" > len"
  | .iLeLen => c!"i <= len"
  | .iAddLeLen n => c!"i + " ++ natStr n ++ c!" <= len"

/-- One line. -/
def line (k : Nat) (s : Str) : Str := ind k ++ s ++ c!"\n"

/-- `gen.rs:717-727`: `(path, route_nest, close_parens)` for a module path. -/
def moduleNest : List Str → Str → Str → Str → Str × Str × Str
  | [], path, accum, parens => (path, accum, parens)
  | m :: ms, path, accum, parens =>
    moduleNest ms (path ++ toSnakeCase m ++ c!"::")
      (accum ++ path ++ c!"Route::" ++ toCapsCase m ++ c!"(") (parens ++ c!")")

/-- `gen.rs:716-755`: one arm of `match method`. -/
def MethodArm.render (k : Nat) (a : MethodArm) : Str :=
  let (path, nest, parens) := moduleNest a.modules [] [] []
  line k (a.method.byteStr ++ c!" => return Ok(Match::"
      ++ (if a.isRedirect then c!"Redirect" else c!"Route") ++ c!"(" ++ nest ++ path
      ++ c!"Route::" ++ toCapsCase a.name ++ c!"(" ++ path ++ toCapsCase a.name ++ c!" {")
  ++ (a.captures.map fun p => line (k + 1) (p.name ++ c!",")).flatten
  ++ (a.nones.map fun n => line (k + 1) (n ++ c!": None,")).flatten
  ++ line k (c!"}" ++ parens ++ c!"))),")

mutual
/-- Source text of a statement at indentation level `k`. -/
def Stmt.render (k : Nat) : Stmt → Str
  | .blank => c!"\n"
  | .letStart => line k c!"let start = i;"
  | .addI n => line k (c!"i += " ++ natStr n ++ c!";")
  | .retNotFound => line k c!"return Ok(Match::NotFound);"
  | .ifThen c body =>
    line k (c!"if " ++ c.render ++ c!" {") ++ renderBlock (k + 1) body ++ line k c!"}"
  | .matchMethod arms =>
    line k c!"match method {" ++ (arms.map (MethodArm.render (k + 1))).flatten
      ++ line (k + 1) c!"_ => return Ok(Match::NotAllowed)," ++ line k c!"}"
  | .matchPath n arms =>
    line k (c!"match &path[i..i+" ++ natStr n ++ c!"] {") ++ renderArms (k + 1) arms ++ line k c!"}"
  | .whileScan =>
    line k c!"while i < len && &path[i..i+1] != b\"/\" {" ++ line (k + 1) c!"i += 1;" ++ line k c!"}"
  | .letText => line k c!"let text = std::str::from_utf8(&path[start..i]).unwrap();"
  | .letParam name _ =>
    line k (c!"let " ++ name ++ c!" = text.parse()")
      ++ line (k + 1) (c!".map_err(|e| Error::fail(\"" ++ name ++ c!"\", e))?;")
/-- Source text of a statement list. -/
def renderBlock (k : Nat) : List Stmt → Str
  | [] => []
  | s :: ss => s.render k ++ renderBlock k ss
/-- Source text of an arm; arms are at level `k`, stray statements at the level of the match. -/
def Arm.render (k : Nat) : Arm → Str
  | .bytes pat body =>
    line k (c!"b\"" ++ pat ++ c!"\" => {") ++ renderBlock (k + 1) body ++ line k c!"},"
  | .wildNotFound => line k c!"_ => return Ok(Match::NotFound),"
  | .wildNothing => line k c!"_ => {},"
  | .someSlash => line k c!"Some('/') => {}"
  | .stray body => renderBlock (k - 1) body
/-- Source text of an arm list. -/
def renderArms (k : Nat) : List Arm → Str
  | [] => []
  | a :: as => a.render k ++ renderArms k as
end

/-! ## What the compiler rejects -/

/-- Characters that stand for themselves inside `b"…"`: ASCII other than `"`, `\` and the carriage return. -/
def byteStrChar (c : Char) : Bool := c.toNat < 128 && c != '"' && c != '\\' && c != '\r'

mutual
/-- Shape of a statement: byte-string literals are ASCII, no ill-typed or stray arm. -/
def Stmt.shapeOk : Stmt → Bool
  | .ifThen _ body => blockShapeOk body
  | .matchPath _ arms => armsShapeOk arms
  | _ => true
/-- All statements of a block have the right shape. -/
def blockShapeOk : List Stmt → Bool
  | [] => true
  | s :: ss => s.shapeOk && blockShapeOk ss
/-- Shape of an arm. -/
def Arm.shapeOk : Arm → Bool
  | .bytes pat body => pat.all byteStrChar && blockShapeOk body
  | .wildNotFound => true
  | .wildNothing => true
  | .someSlash => false
  | .stray _ => false
/-- All arms have the right shape. -/
def armsShapeOk : List Arm → Bool
  | [] => true
  | a :: as => a.shapeOk && armsShapeOk as
end

/-- Types of local variables of the generated program. -/
inductive Ty where
  | usize
  | str
  | user (typ : Str)
deriving DecidableEq, Repr

/-- Variables in scope with their types, innermost first.  The function's own variables `i`
(mutable `usize`), `len` (`usize`), `path` and `method` (`&[u8]`) are not listed: a listed variable
of that name shadows them. -/
abbrev Scope := List (Str × Ty)

/-- Variable lookup. -/
def lookupVar {α} (x : Str) : List (Str × α) → Option α
  | [] => none
  | (y, v) :: rest => if y = x then some v else lookupVar x rest

/-- Can a value of this type be used as an index? -/
def Ty.isUsize : Ty → Bool
  | .usize => true
  | .str => false
  | .user t => t == c!"usize"

/-- `i`, `len`: usable as an index unless shadowed by a variable of another type. -/
def Scope.index (sc : Scope) (x : Str) : Bool :=
  match lookupVar x sc with
  | none => true
  | some t => t.isUsize

/-- `path`, `method`, mutable `i`: usable unless shadowed. -/
def Scope.free (sc : Scope) (x : Str) : Bool := (lookupVar x sc).isNone

/-- A struct literal type-checks: fields are distinct and every captured variable has the type
declared for the field. -/
def MethodArm.typed (sc : Scope) (a : MethodArm) : Bool :=
  decide (a.captures.map Param.name ++ a.nones).Nodup &&
  a.captures.all fun p =>
    match lookupVar p.name sc with
    | some (.user t) => t == p.typ
    | some .usize => p.typ == c!"usize"
    | _ => false

mutual
/-- Type-check a statement; the result is the scope after it. -/
def Stmt.check : Stmt → Scope → Option Scope
  | .blank, sc => some sc
  | .letStart, sc => if sc.index c!"i" then some ((c!"start", .usize) :: sc) else none
  | .addI _, sc => if sc.free c!"i" then some sc else none
  | .retNotFound, sc => some sc
  | .ifThen _ body, sc =>
    if sc.index c!"i" && sc.index c!"len" && (checkBlock body sc).isSome then some sc else none
  | .matchMethod arms, sc =>
    if sc.free c!"method" && arms.all (MethodArm.typed sc) then some sc else none
  | .matchPath _ arms, sc =>
    if sc.free c!"path" && sc.index c!"i" && checkArms arms sc then some sc else none
  | .whileScan, sc =>
    if sc.free c!"path" && sc.free c!"i" && sc.index c!"len" then some sc else none
  | .letText, sc =>
    if sc.free c!"path" && ((lookupVar c!"start" sc).any Ty.isUsize) && sc.index c!"i" then
      some ((c!"text", .str) :: sc)
    else none
  | .letParam name typ, sc =>
    match lookupVar c!"text" sc, typ with
    | some .str, some ty => some ((name, .user ty) :: sc)
    | _, _ => none
/-- Type-check a statement list. -/
def checkBlock : List Stmt → Scope → Option Scope
  | [], sc => some sc
  | s :: ss, sc =>
    match s.check sc with
    | none => none
    | some sc' => checkBlock ss sc'
/-- Type-check an arm. -/
def Arm.check : Arm → Scope → Bool
  | .bytes _ body, sc => (checkBlock body sc).isSome
  | .wildNotFound, _ => true
  | .wildNothing, _ => true
  | .someSlash, _ => false
  | .stray _, _ => false
/-- Type-check an arm list. -/
def checkArms : List Arm → Scope → Bool
  | [], _ => true
  | a :: as, sc => a.check sc && checkArms as sc
end

/-- The emitted body of `match_route` compiles (as far as the modelled checks go). -/
def compiles (body : List Stmt) : Bool := blockShapeOk body && (checkBlock body []).isSome

/-! ## Type inference

`let NAME = text.parse()…?` does not name the type; rustc takes it from the first use that pins
it, the struct literal field it initialises.  The result is `none` if the statements neither use
nor rebind the variable, `some none` if it is rebound before being used, and `some (some t)` if it
is used as a field of type `t`. -/

/-- The first arm that uses `x` as a field. -/
def usedBy (x : Str) : List MethodArm → Option (Option Str)
  | [] => none
  | a :: as =>
    match a.captures.find? (fun p => p.name == x) with
    | some p => some (some p.typ)
    | none => usedBy x as

/-- A use inside a nested block counts, a rebinding there ends with the block. -/
def leaveScope : Option (Option Str) → Option (Option Str)
  | some (some t) => some (some t)
  | _ => none

mutual
/-- First use or rebinding of `x` in a statement. -/
def Stmt.use (x : Str) : Stmt → Option (Option Str)
  | .letStart => if x = c!"start" then some none else none
  | .letText => if x = c!"text" then some none else none
  | .letParam name _ => if x = name then some none else none
  | .ifThen _ body => leaveScope (useBlock x body)
  | .matchMethod arms => usedBy x arms
  | .matchPath _ arms => useArms x arms
  | _ => none
/-- First use or rebinding of `x` in a statement list. -/
def useBlock (x : Str) : List Stmt → Option (Option Str)
  | [] => none
  | s :: ss =>
    match s.use x with
    | some u => some u
    | none => useBlock x ss
/-- First use of `x` in an arm. -/
def Arm.use (x : Str) : Arm → Option (Option Str)
  | .bytes _ body => leaveScope (useBlock x body)
  | _ => none
/-- First use of `x` in an arm list. -/
def useArms (x : Str) : List Arm → Option (Option Str)
  | [] => none
  | a :: as =>
    match a.use x with
    | some u => some u
    | none => useArms x as
end

/-- The type inferred for a variable `x` bound just before the statements `body`. -/
def inferType (x : Str) (body : List Stmt) : Option Str :=
  match useBlock x body with
  | some (some t) => some t
  | _ => none

/-! ## Meaning -/

/-- What the generated program depends on: the parameter types' `FromStr` implementations.
`V` are the parsed values, `E` the parse errors, `parse typ text` is `text.parse::<typ>()`, and
`asUsize v` is the value as an index when `v` is of type `usize` (only consulted when a parameter
shadows one of the generated index variables). -/
structure World where
  V : Type
  E : Type
  parse : Str → Str → Except E V
  asUsize : V → Option Nat

/-- Values of local variables of the generated program. -/
inductive Val (W : World) where
  | usize (n : Nat)
  | str (s : Str)
  | user (v : W.V)

/-- The value inside `Match::Route(_)` / `Match::Redirect(_)`: which struct (module path and
name as written in the configuration; the emitted constructors are their case conversions), the
parameter fields, and the query fields (all `None`). -/
structure RouteVal (W : World) where
  modules : List Str
  name : Str
  params : List (Str × Val W)
  nones : List Str

/-- Outcome of a call of `match_route`. -/
inductive Outcome (W : World) where
  /-- `Ok(Match::NotFound)` -/
  | notFound
  /-- `Ok(Match::NotAllowed)` -/
  | notAllowed
  /-- `Ok(Match::Route(v))` -/
  | route (v : RouteVal W)
  /-- `Ok(Match::Redirect(v))` -/
  | redirect (v : RouteVal W)
  /-- `Err(Error { param, what })` -/
  | err (param : Str) (what : W.E)
  /-- the call panics -/
  | panic
  /-- there is no call: the program does not compile -/
  | rejected

/-- Local state: the mutable index `i` and the `let`-bound variables, innermost first. -/
structure State (W : World) where
  i : Nat
  env : List (Str × Val W)

/-- Result of executing statements. -/
inductive Flow (W : World) where
  | next (s : State W)
  | ret (o : Outcome W)

/-- A variable used as an index. -/
def Val.asUsize {W : World} : Val W → Option Nat
  | .usize n => some n
  | .str _ => none
  | .user v => W.asUsize v

/-- Reading `i`: the generated counter unless a parameter of that name shadows it. -/
def State.readI {W : World} (s : State W) : Option Nat :=
  match lookupVar c!"i" s.env with
  | none => some s.i
  | some v => v.asUsize

/-- Reading `len`. -/
def State.readLen {W : World} (path : Bytes) (s : State W) : Option Nat :=
  match lookupVar c!"len" s.env with
  | none => some path.length
  | some v => v.asUsize

/-- Is `path` still the request path? -/
def State.pathOk {W : World} (s : State W) : Bool := (lookupVar c!"path" s.env).isNone

/-- Is `method` still the request method? -/
def State.methodOk {W : World} (s : State W) : Bool := (lookupVar c!"method" s.env).isNone

/-- `str::from_utf8`: Lean core's UTF-8 decoder. -/
def fromUtf8 (bs : Bytes) : Option Str :=
  (ByteArray.utf8Decode? ⟨bs.toArray⟩).map Array.toList

/-- `while i < len && &path[i..i+1] != b"/" { i += 1; }` from index `i` with the rest of the path
`path[i..]`; `none` is an out-of-range slice. -/
def scan (len : Nat) : Bytes → Nat → Option Nat
  | [], i => if i < len then none else some i
  | b :: bs, i =>
    if i < len then (if b = asciiByte '/' then some i else scan len bs (i + 1)) else some i

/-- Truth value of a condition; `none` if `i` or `len` is not an integer. -/
def Cond.eval {W : World} (c : Cond) (path : Bytes) (s : State W) : Option Bool :=
  match s.readI, s.readLen path with
  | some i, some len =>
    some (match c with
      | .iEqLen => i == len
      | .iAddGtLen n => decide (i + n > len)
      | .iLeLen => decide (i ≤ len)
      | .iAddLeLen n => decide (i + n ≤ len))
  | _, _ => none

/-- Values of the fields written `name,`.  A field of type `usize` may receive an index variable;
any other use of a non-parsed variable does not type-check (`none`). -/
def captureFields {W : World} (env : List (Str × Val W)) : List Param → Option (List (Str × Val W))
  | [] => some []
  | p :: ps =>
    match lookupVar p.name env, captureFields env ps with
    | some (.user v), some rest => some ((p.name, .user v) :: rest)
    | some (.usize n), some rest =>
      if p.typ = c!"usize" then some ((p.name, .usize n) :: rest) else none
    | _, _ => none

/-- `match method { arms… _ => return Ok(Match::NotAllowed), }`. -/
def execMethods {W : World} (method : Bytes) (s : State W) : List MethodArm → Outcome W
  | [] => .notAllowed
  | a :: as =>
    if method = a.method.display.map asciiByte then
      match captureFields s.env a.captures with
      | none => .rejected
      | some fields =>
        let v : RouteVal W := { modules := a.modules, name := a.name, params := fields, nones := a.nones }
        if a.isRedirect then .redirect v else .route v
    else execMethods method s as

mutual
/-- Execute one statement. -/
def Stmt.exec {W : World} (path method : Bytes) : Stmt → State W → Flow W
  | .blank, s => .next s
  | .letStart, s =>
    match s.readI with
    | none => .ret .rejected
    | some i => .next { s with env := (c!"start", .usize i) :: s.env }
  | .addI n, s =>
    match lookupVar c!"i" s.env with
    | none => .next { s with i := s.i + n }
    | some _ => .ret .rejected           -- a parameter binding is not `mut`
  | .retNotFound, _ => .ret .notFound
  | .ifThen c body, s =>
    match c.eval path s with
    | none => .ret .rejected
    | some true =>
      match execBlock path method body s with
      | .ret o => .ret o
      | .next s' => .next { s' with env := s.env }
    | some false => .next s
  | .matchMethod arms, s =>
    if s.methodOk then .ret (execMethods method s arms) else .ret .rejected
  | .matchPath n arms, s =>
    match s.pathOk, s.readI with
    | true, some i =>
      if i + n ≤ path.length then execArms path method ((path.drop i).take n) arms s
      else .ret .panic
    | _, _ => .ret .rejected
  | .whileScan, s =>
    match s.pathOk, lookupVar c!"i" s.env, s.readLen path with
    | true, none, some len =>
      match scan len (path.drop s.i) s.i with
      | none => .ret .panic
      | some i' => .next { s with i := i' }
    | _, _, _ => .ret .rejected
  | .letText, s =>
    match s.pathOk, (lookupVar c!"start" s.env).bind Val.asUsize, s.readI with
    | true, some start, some i =>
      if start ≤ i ∧ i ≤ path.length then
        match fromUtf8 ((path.drop start).take (i - start)) with
        | none => .ret .panic
        | some text => .next { s with env := (c!"text", .str text) :: s.env }
      else .ret .panic
    | _, _, _ => .ret .rejected
  | .letParam name typ, s =>
    match lookupVar c!"text" s.env, typ with
    | some (.str text), some ty =>
      match W.parse ty text with
      | .error e => .ret (.err name e)
      | .ok v => .next { s with env := (name, .user v) :: s.env }
    | _, _ => .ret .rejected
/-- Execute a statement list. -/
def execBlock {W : World} (path method : Bytes) : List Stmt → State W → Flow W
  | [], s => .next s
  | st :: sts, s =>
    match st.exec path method s with
    | .ret o => .ret o
    | .next s' => execBlock path method sts s'
/-- Execute one arm of `match &path[…]` on the scrutinee `slice`; `none` if it does not apply. -/
def Arm.exec {W : World} (path method : Bytes) (slice : Bytes) : Arm → State W → Option (Flow W)
  | .bytes pat body, s =>
    if slice = pat.map asciiByte then
      match execBlock path method body s with
      | .ret o => some (.ret o)
      | .next s' => some (.next { s' with env := s.env })
    else none
  | .wildNotFound, _ => some (.ret .notFound)
  | .wildNothing, s => some (.next s)
  | .someSlash, _ => some (.ret .rejected)
  | .stray _, _ => some (.ret .rejected)
/-- Execute the first applicable arm. -/
def execArms {W : World} (path method : Bytes) (slice : Bytes) : List Arm → State W → Flow W
  | [], _ => .ret .rejected              -- a match must be exhaustive
  | a :: as, s =>
    match a.exec path method slice s with
    | some f => f
    | none => execArms path method slice as s
end

/-- `gen.rs:455-461`: the initial state of `match_route`: `i` skips one leading `/`. -/
def initialState (W : World) (path : Bytes) : State W :=
  { i := if path.take 1 = [asciiByte '/'] then 1 else 0, env := [] }

/-- A call of the generated `match_route` whose emitted body is `body`. -/
def callMatchRoute (W : World) (body : List Stmt) (path method : Bytes) : Outcome W :=
  if compiles body then
    match execBlock path method body (initialState W path) with
    | .ret o => o
    | .next _ => .rejected               -- falling off the end has type `()`
  else .rejected

end Wayfinder
