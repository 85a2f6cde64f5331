import Verif.Model.Rust
import Verif.Spec.Config
/-!
# The calls of `FromStr` during a call of `match_route`

The only calls of code outside of the emitted file: `text.parse()` for every captured parameter
(`/repo/wayfinder/src/gen/gen.rs:793-806`).
-/

namespace Wayfinder

/-- One call of `FromStr`: for which parameter, hence for which type, and with which text. -/
structure Ask where
  param : Param
  text : Str
deriving DecidableEq, Repr

mutual
/-- The calls of `FromStr` by one statement. -/
def Stmt.asks {W : World} (path method : Bytes) : Stmt → State W → List Ask
  | .letParam x T, s =>
    match lookupVar c!"text" s.env, T with
    | some (.str text), some ty => [⟨⟨x, ty⟩, text⟩]
    | _, _ => []
  | .ifThen c body, s => if c.eval path s = some true then blockAsks path method body s else []
  | .matchPath n arms, s =>
    match s.pathOk, s.readI with
    | true, some i => if i + n ≤ path.length then armsAsks path method ((path.drop i).take n) arms s else []
    | _, _ => []
  | .blank, _ => []
  | .letStart, _ => []
  | .addI _, _ => []
  | .whileScan, _ => []
  | .letText, _ => []
  | .retNotFound, _ => []
  | .matchMethod _, _ => []
/-- The calls of `FromStr` by a list of statements, up to the one that returns. -/
def blockAsks {W : World} (path method : Bytes) : List Stmt → State W → List Ask
  | [], _ => []
  | st :: sts, s =>
    st.asks path method s ++
      match st.exec path method s with
      | .ret _ => []
      | .next s' => blockAsks path method sts s'
/-- The calls of `FromStr` in the first applicable arm. -/
def armsAsks {W : World} (path method : Bytes) (slice : Bytes) : List Arm → State W → List Ask
  | [], _ => []
  | a :: as, s =>
    match a.exec path method slice s with
    | some _ => a.asks path method s
    | none => armsAsks path method slice as s
/-- The calls of `FromStr` in an arm that applies. -/
def Arm.asks {W : World} (path method : Bytes) : Arm → State W → List Ask
  | .bytes _ body, s => blockAsks path method body s
  | .wildNotFound, _ => []
  | .wildNothing, _ => []
  | .someSlash, _ => []
  | .stray _, _ => []
end

/-- The calls of `FromStr` during a call of `match_route`, in order. -/
def callAsks (W : World) (body : List Stmt) (path method : Bytes) : List Ask :=
  blockAsks path method body (initialState W path)

/-- The call succeeds. -/
def Ask.ok {W : World} (a : Ask) (v : W.V) : Prop := W.parse a.param.typ a.text = .ok v

/-- The call fails. -/
def Ask.fails {W : World} (a : Ask) (e : W.E) : Prop := W.parse a.param.typ a.text = .error e

end Wayfinder
