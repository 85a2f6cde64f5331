import Verif.Model.Rust
import Verif.Spec.Config
/-!
# The sums that a call computes

`match_route` computes with `usize`; the model computes with natural numbers.  Here are all the sums of a call, so that one can say
how large they become.
-/

namespace Wayfinder

/-- The sums in the condition of an `if`: `i + n` (`/repo/wayfinder/src/gen/gen.rs:550,643`). -/
def Cond.sums {W : World} (c : Cond) (s : State W) : List Nat :=
  match c, s.readI with
  | .iAddGtLen n, some i => [i + n]
  | .iAddLeLen n, some i => [i + n]
  | _, _ => []

/-- The sums in `while i < len && &path[i..i+1] != b"/" { i += 1; }` (`/repo/wayfinder/src/gen/gen.rs:783-785`) from index `i` with the
rest of the path `path[i..]`: `i+1` in every test behind `&&`, and the same again in every turn. -/
def scanSums (len : Nat) : Bytes → Nat → List Nat
  | [], i => if i < len then [i + 1] else []
  | b :: bs, i => if i < len then (i + 1) :: (if b = asciiByte '/' then [] else (i + 1) :: scanSums len bs (i + 1)) else []

mutual
/-- The sums computed by one statement. -/
def Stmt.sums {W : World} (path method : Bytes) : Stmt → State W → List Nat
  | .addI n, s => [s.i + n]
  | .ifThen c body, s => c.sums s ++ if c.eval path s = some true then blockSums path method body s else []
  | .matchPath n arms, s =>
    match s.readI with
    | some i => (i + n) :: if i + n ≤ path.length then armsSums path method ((path.drop i).take n) arms s else []
    | none => []
  | .whileScan, s => scanSums ((s.readLen path).getD 0) (path.drop s.i) s.i
  | .blank, _ => []
  | .letStart, _ => []
  | .retNotFound, _ => []
  | .matchMethod _, _ => []
  | .letText, _ => []
  | .letParam _ _, _ => []
/-- The sums computed by a list of statements, up to the one that returns. -/
def blockSums {W : World} (path method : Bytes) : List Stmt → State W → List Nat
  | [], _ => []
  | st :: sts, s =>
    st.sums path method s ++
      match st.exec path method s with
      | .ret _ => []
      | .next s' => blockSums path method sts s'
/-- The sums computed in the first applicable arm. -/
def armsSums {W : World} (path method : Bytes) (slice : Bytes) : List Arm → State W → List Nat
  | [], _ => []
  | a :: as, s =>
    match a.exec path method slice s with
    | some _ => a.sums path method s
    | none => armsSums path method slice as s
/-- The sums computed in an arm that applies. -/
def Arm.sums {W : World} (path method : Bytes) : Arm → State W → List Nat
  | .bytes _ body, s => blockSums path method body s
  | .wildNotFound, _ => []
  | .wildNothing, _ => []
  | .someSlash, _ => []
  | .stray _, _ => []
end

/-- The sums computed by a call of `match_route`. -/
def callSums (W : World) (body : List Stmt) (path method : Bytes) : List Nat :=
  blockSums path method body (initialState W path)

/-- No fixed segment of a route has more than `L` characters. -/
def TextsAtMost (L : Nat) (r : Routes) : Prop :=
  ∀ segs above node, HasRoute r segs above node → ∀ s, PathSegment.static s ∈ segs → s.length ≤ L

end Wayfinder
