import Verif.Model.Rust
/-!
# The number of statements a call executes

Counted are the statements of `match_route` that are reached, a `return` in an arm as one, and every
turn of the `while` loop.  Not counted is the work inside one statement: comparing a slice with the
patterns of a `match`, `from_utf8`, and the parsers of the parameter types.
-/

namespace Wayfinder

/-- The number of turns of `while i < len && &path[i..i+1] != b"/" { i += 1; }` from index `i` with the
rest of the path `path[i..]` (`/repo/wayfinder/src/gen/gen.rs:783-785`). -/
def turns (len : Nat) : Bytes → Nat → Nat
  | [], _ => 0
  | b :: bs, i => if i < len ∧ b ≠ asciiByte '/' then turns len bs (i + 1) + 1 else 0

mutual
/-- Statements executed by one statement. -/
def Stmt.steps {W : World} (path method : Bytes) : Stmt → State W → Nat
  | .blank, _ => 0
  | .ifThen c body, s => if c.eval path s = some true then blockSteps path method body s + 1 else 1
  | .matchMethod _, _ => 2
  | .matchPath n arms, s =>
    match s.pathOk, s.readI with
    | true, some i =>
      if i + n ≤ path.length then armsSteps path method ((path.drop i).take n) arms s + 1 else 1
    | _, _ => 1
  | .whileScan, s => turns ((s.readLen path).getD 0) (path.drop s.i) s.i + 1
  | .letStart, _ => 1
  | .addI _, _ => 1
  | .retNotFound, _ => 1
  | .letText, _ => 1
  | .letParam _ _, _ => 1
/-- Statements executed by a list of statements, up to the one that returns. -/
def blockSteps {W : World} (path method : Bytes) : List Stmt → State W → Nat
  | [], _ => 0
  | st :: sts, s =>
    st.steps path method s +
      match st.exec path method s with
      | .ret _ => 0
      | .next s' => blockSteps path method sts s'
/-- Statements executed in the first applicable arm. -/
def armsSteps {W : World} (path method : Bytes) (slice : Bytes) : List Arm → State W → Nat
  | [], _ => 0
  | a :: as, s =>
    match a.exec path method slice s with
    | some _ => a.steps path method s
    | none => armsSteps path method slice as s
/-- Statements executed in an arm that applies. -/
def Arm.steps {W : World} (path method : Bytes) : Arm → State W → Nat
  | .bytes _ body, s => blockSteps path method body s
  | .wildNotFound, _ => 1
  | .wildNothing, _ => 0
  | .someSlash, _ => 0
  | .stray _, _ => 0
end

/-- Statements executed by a call of `match_route`: the four `let`s at its beginning
(`/repo/wayfinder/src/gen/gen.rs:454-460`) and the emitted body. -/
def callSteps (W : World) (body : List Stmt) (path method : Bytes) : Nat :=
  4 + blockSteps path method body (initialState W path)

end Wayfinder
