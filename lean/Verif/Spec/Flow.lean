import Verif.Spec.Shape
/-!
# Control flow as rustc sees it

The checks of rustc that do not depend on the variables: does every way through `match_route` end in a `return`, has every
expression at the end of a block the type that is wanted there, is every `match` exhaustive; and what the lints `unreachable_code` and
`unreachable_patterns` report.

The rules are those of the Rust reference.  An expression with a block (`if`, `match`, `while`) at the end of a block is the value of the
block; elsewhere its type has to be `()`.  A block diverges if one of its statements does, `match` if all arms do, `if` without
`else` never.  A diverging block without a value has any type.
-/

namespace Wayfinder

mutual
/-- Execution does not get behind the statement. -/
def Stmt.diverges : Stmt → Bool
  | .retNotFound => true
  | .matchMethod _ => true
  | .matchPath _ arms => armsDiverge arms
  | .blank => false
  | .letStart => false
  | .addI _ => false
  | .ifThen _ _ => false
  | .whileScan => false
  | .letText => false
  | .letParam _ _ => false
/-- Execution does not get to the end of the block. -/
def blockDiverges : List Stmt → Bool
  | [] => false
  | s :: ss => s.diverges || blockDiverges ss
/-- Execution does not get to the end of the arm. -/
def Arm.diverges : Arm → Bool
  | .bytes _ body => blockDiverges body
  | .wildNotFound => true
  | .wildNothing => false
  | .someSlash => false
  | .stray _ => false
/-- Execution does not get to the end of any arm. -/
def armsDiverge : List Arm → Bool
  | [] => true
  | a :: as => a.diverges && armsDiverge as
end

/-- An empty line is no statement. -/
def Stmt.isBlank : Stmt → Bool
  | .blank => true
  | _ => false

/-- Expressions with a block; the other statements end with a semicolon. -/
def Stmt.isExpr : Stmt → Bool
  | .ifThen _ _ => true
  | .matchMethod _ => true
  | .matchPath _ _ => true
  | .whileScan => true
  | _ => false

/-- `_ => …` -/
def Arm.isWild : Arm → Bool
  | .wildNotFound => true
  | .wildNothing => true
  | _ => false

mutual
/-- The expression has type `()`, or, if `value` is set, the type of the result of the function (or any type). -/
def Stmt.fits (value : Bool) : Stmt → Bool
  | .ifThen _ body => !value && blockFits false false body
  | .matchMethod _ => true
  | .matchPath _ arms => arms.any Arm.isWild && armsFit value arms
  | .retNotFound => true
  | .blank => !value
  | .letStart => !value
  | .addI _ => !value
  | .whileScan => !value
  | .letText => !value
  | .letParam _ _ => !value
/-- The same for a block.  `gone`: a statement before this place diverges. -/
def blockFits (value gone : Bool) : List Stmt → Bool
  | [] => !value || gone
  | s :: ss =>
    if s.isExpr && ss.all Stmt.isBlank then s.fits value
    else s.fits false && blockFits value (gone || s.diverges) ss
/-- The same for an arm. -/
def Arm.fits (value : Bool) : Arm → Bool
  | .bytes _ body => blockFits value false body
  | .wildNotFound => true
  | .wildNothing => !value
  | .someSlash => false
  | .stray _ => false
/-- All arms have the type. -/
def armsFit (value : Bool) : List Arm → Bool
  | [] => true
  | a :: as => a.fits value && armsFit value as
end

/-- The body of a function with a result passes. -/
def returns (body : List Stmt) : Bool := blockFits true false body

/-- Whatever the second arm takes, the first takes already. -/
def Arm.covers : Arm → Arm → Bool
  | .wildNotFound, _ => true
  | .wildNothing, _ => true
  | .bytes p _, .bytes p' _ => p == p'
  | _, _ => false

mutual
/-- No `unreachable_code` and no `unreachable_patterns` in the statement. -/
def Stmt.live : Stmt → Bool
  | .ifThen _ body => blockLive body
  | .matchMethod arms => decide (arms.map MethodArm.method).Nodup
  | .matchPath _ arms => armsLive arms
  | .blank => true
  | .letStart => true
  | .addI _ => true
  | .retNotFound => true
  | .whileScan => true
  | .letText => true
  | .letParam _ _ => true
/-- The same for a block: nothing stands behind a statement that diverges. -/
def blockLive : List Stmt → Bool
  | [] => true
  | s :: ss => s.live && (!s.diverges || ss.all Stmt.isBlank) && blockLive ss
/-- The same for an arm. -/
def Arm.live : Arm → Bool
  | .bytes _ body => blockLive body
  | .wildNotFound => true
  | .wildNothing => true
  | .someSlash => true
  | .stray _ => true
/-- The same for arms: none is covered by one before it. -/
def armsLive : List Arm → Bool
  | [] => true
  | a :: as => a.live && !as.any a.covers && armsLive as
end

/-- In every block for which code is emitted, no verb occurs twice. -/
def VerbsOnce (r : Routes) : Prop := ∀ segs above node, LiveRoute r segs above node → (node.resources.map Resource.method).Nodup

end Wayfinder
