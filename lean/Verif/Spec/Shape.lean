import Verif.Spec.Config
import Verif.Spec.Router
/-!
# Specification vocabulary: configurations whose code has the right shape
-/

namespace Wayfinder

/-- `LiveRoute r segs query node`: a route of the configuration for which code is emitted: as
`HasRoute`, but of several parameter siblings only the alphabetically first is followed. -/
inductive LiveRoute : Routes → List PathSegment → List Param → Routes → Prop where
  | here (r : Routes) : LiveRoute r [] [] r
  | static {r node : Routes} {s : Str} {sub : Routes} {segs : List PathSegment} {query : List Param} :
      NestedRoutes.mk (.static s) sub ∈ r.routes → LiveRoute sub segs query node →
      LiveRoute r (.static s :: segs) (r.queryParameters ++ query) node
  | dynamic {r node : Routes} {p : Param} {sub : Routes} {segs : List PathSegment}
      {query : List Param} :
      NestedRoutes.mk (.dynamic p) sub ∈ r.routes → captor r.routes = some p.name →
      LiveRoute sub segs query node →
      LiveRoute r (.dynamic p :: segs) (r.queryParameters ++ query) node

/-- The conditions on the children of one block under which the generator emits well-formed code. -/
structure LocalOk (ns : List NestedRoutes) : Prop where
  /-- static texts can be written in a byte string literal -/
  ascii : ∀ s ∈ staticTexts ns, ∀ c ∈ s, byteStrChar c = true
  /-- no static text is the beginning of a sibling's text -/
  prefixFree : (staticTexts ns).Pairwise fun a b => ¬ a <+: b ∧ ¬ b <+: a
  /-- without static siblings there is at most one parameter -/
  oneParam : paramNames ns ≠ [] → staticTexts ns = [] → ∃ x, paramNames ns = [x]
  /-- next to a parameter all static siblings begin with the same character -/
  initial : paramNames ns ≠ [] → ∃ c, ∀ s ∈ staticTexts ns, s.head? = some c

/-- All blocks for which code is emitted satisfy the conditions. -/
def Shapely (r : Routes) : Prop :=
  ∀ segs query node, LiveRoute r segs query node → LocalOk node.routes

/-- The parameters of a route, in order. -/
def routeParams (segs : List PathSegment) : List Param :=
  segs.filterMap fun
    | .dynamic p => some p
    | .static _ => none

/-- The struct of every resource for which code is emitted has distinct field names: path parameters,
then inherited query parameters, then the resource's own. -/
def FieldsDistinct (r : Routes) : Prop :=
  ∀ segs above node, LiveRoute r segs above node → ∀ res ∈ node.resources,
    ((routeParams segs ++ above ++ node.queryParameters ++ res.queryParameters).map Param.name).Nodup

/-- Behind every parameter there is some resource. -/
def ParamsUsed (r : Routes) : Prop :=
  ∀ segs p above node, LiveRoute r (segs ++ [.dynamic p]) above node →
    ∃ segs' above' node', LiveRoute node segs' above' node' ∧ node'.resources ≠ []

/-- As `LiveRoute`, but leaving only blocks without parameter children, so that no variable is
declared on the way. -/
inductive PlainRoute : Routes → List PathSegment → Routes → Prop where
  | here (r : Routes) : PlainRoute r [] r
  | static {r node : Routes} {s : Str} {sub : Routes} {segs : List PathSegment} :
      paramNames r.routes = [] → NestedRoutes.mk (.static s) sub ∈ r.routes →
      PlainRoute sub segs node → PlainRoute r (.static s :: segs) node

/-- What the names of parameters must satisfy for the emitted function to compile.  Such a function
has the variables `i`, `len`, `path` and `method`, declares `start` wherever a parameter may follow,
and `text` for every parameter; a parameter of such a name hides them, or is hidden by them. -/
structure NamesOk (r : Routes) : Prop where
  /-- these three are always needed behind a parameter -/
  own : ∀ segs p above node, LiveRoute r (segs ++ [.dynamic p]) above node →
    p.name ≠ c!"i" ∧ p.name ≠ c!"path" ∧ p.name ≠ c!"method"
  /-- `len` is compared with `i` -/
  len : ∀ segs p above node, LiveRoute r (segs ++ [.dynamic p]) above node →
    p.name = c!"len" → p.typ = c!"usize"
  /-- `text` is hidden by the text of the next parameter -/
  text : ∀ segs p segs' above node, LiveRoute r (segs ++ .dynamic p :: segs') above node →
    node.resources ≠ [] → p.name = c!"text" → routeParams segs' = []
  /-- the type of `start` is inferred from a use before it is declared again -/
  startUsed : ∀ segs p above node, LiveRoute r (segs ++ [.dynamic p]) above node →
    p.name = c!"start" → ∃ segs' node', PlainRoute node segs' node' ∧ node'.resources ≠ []
  /-- a later `start` is a `usize` -/
  startType : ∀ segs p above node, LiveRoute r (segs ++ [.dynamic p]) above node →
    p.name = c!"start" → ∀ segs' above' node', LiveRoute node segs' above' node' →
    node'.resources ≠ [] → ¬ PlainRoute node segs' node' → p.typ = c!"usize"

/-- The two cases in which a parameter that passes for a variable of the emitted function changes
what the function does: no parameter is named `len`, and none named `start` has a further parameter
somewhere behind it. -/
def Hygienic (r : Routes) : Prop :=
  ∀ segs p above node, LiveRoute r (segs ++ [.dynamic p]) above node →
    p.name ≠ c!"len" ∧
    (p.name = c!"start" → ∀ segs' above' node', LiveRoute node segs' above' node' →
      paramNames node'.routes = [])

end Wayfinder
