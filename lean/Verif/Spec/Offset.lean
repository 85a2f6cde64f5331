import Verif.Model.Rust
import Verif.Spec.Instance
import Verif.Spec.Shape
/-!
# Answers in which a variable of the emitted function stands for a parameter

In front of every parameter the emitted function says `let start = i;` (`gen/gen.rs:567`, `:588`), which hides a parameter of that
name captured before.  A parameter called `len` hides the length of the path.
-/

namespace Wayfinder

/-- The fields of a value, the one called `start` holding `n`. -/
def RouteVal.placed {W : World} (n : Nat) (v : RouteVal W) : RouteVal W :=
  { v with params := v.params.map fun f => if f.1 = c!"start" then (f.1, .usize n) else f }

/-- An answer, the field called `start` holding `n`. -/
def Outcome.placed {W : World} (n : Nat) : Outcome W → Outcome W
  | .route v => .route (v.placed n)
  | .redirect v => .redirect (v.placed n)
  | .notFound => .notFound
  | .notAllowed => .notAllowed
  | .err p e => .err p e
  | .panic => .panic
  | .rejected => .rejected

/-- `n` is the position behind a slash of the path, where a segment begins. -/
def SegmentAt (path : Bytes) (n : Nat) : Prop := ∃ before after, path = before ++ slash :: after ∧ n = before.length + 1

/-- `o` is `o'`, but for the field called `start`, which may hold the position of a segment in the path instead. -/
def Outcome.Near {W : World} (path : Bytes) (o o' : Outcome W) : Prop :=
  o = o' ∨ ∃ n, SegmentAt path n ∧ o = o'.placed n

/-- No beginning of the path is an instance of the route `segs`: it leads elsewhere, or one of the parameters cannot be
parsed. -/
def Untaken (W : World) (path : Bytes) (segs : List PathSegment) : Prop :=
  ∀ caps parts, Fits W segs caps parts → ¬ spell parts <+: stripSlash path ++ [slash]

/-- A parameter for which code is emitted is called `start`, and one of the blocks behind it has a parameter. -/
def StartHidden (r : Routes) : Prop :=
  ∃ segs p above node segs' above' node', LiveRoute r (segs ++ [.dynamic p]) above node ∧ p.name = c!"start" ∧
    LiveRoute node segs' above' node' ∧ paramNames node'.routes ≠ []

end Wayfinder
