import Verif.Spec.Router
/-!
# The size of the emitted `match_route`

What has to be written for a configuration: one struct literal for every resource, in a `match` on the
method.  The literals are listed here along the configuration, and the lines of a text are counted.
-/

namespace Wayfinder

/-- The struct literals for the resources of a block: `caps` are the parameters of the path, `query` the
query parameters of the enclosing blocks. -/
def Routes.ownLiterals (caps : List Param) (query : List Str) : Routes → List MethodArm
  | .mk rs _ qs => rs.map fun r =>
    ⟨r.method, r.isRedirect, r.modules, r.name, caps,
      query ++ qs.map Param.name ++ r.queryParameters.map Param.name⟩

/-- The parameters of a path that is extended by a segment. -/
def PathSegment.capture (caps : List Param) : PathSegment → List Param
  | .static _ => caps
  | .dynamic p => caps ++ [p]

mutual
/-- The struct literals for the resources below a child, its own included. -/
def NestedRoutes.literals (caps : List Param) (query : List Str) : NestedRoutes → List MethodArm
  | .mk seg r => r.ownLiterals (seg.capture caps) query ++ r.literalsBelow (seg.capture caps) query
/-- The struct literals for the resources of the children of a block. -/
def Routes.literalsBelow (caps : List Param) (query : List Str) : Routes → List MethodArm
  | .mk _ ns qs => nestedLiterals caps (query ++ qs.map Param.name) ns
/-- The struct literals for the resources below a list of children. -/
def nestedLiterals (caps : List Param) (query : List Str) : List NestedRoutes → List MethodArm
  | [] => []
  | n :: ns => n.literals caps query ++ nestedLiterals caps query ns
end

mutual
/-- The number of children, their children, and so on. -/
def Routes.nestedCount : Routes → Nat
  | .mk _ ns _ => nestedCounts ns
/-- The number of children in a list and below. -/
def nestedCounts : List NestedRoutes → Nat
  | [] => 0
  | n :: ns => n.nestedCount + nestedCounts ns
/-- A child and those below. -/
def NestedRoutes.nestedCount : NestedRoutes → Nat
  | .mk _ r => r.nestedCount + 1
end

mutual
/-- No block has two parameters as children. -/
def Routes.oneParam : Routes → Bool
  | .mk _ ns _ => (paramNames ns).length ≤ 1 && nestedOneParam ns
/-- The same for all blocks of a list of children. -/
def nestedOneParam : List NestedRoutes → Bool
  | [] => true
  | n :: ns => n.oneParam && nestedOneParam ns
/-- The same for the block of a child. -/
def NestedRoutes.oneParam : NestedRoutes → Bool
  | .mk _ r => r.oneParam
end

/-- No newline in a text. -/
def oneLine (s : Str) : Bool := s.all (· != '\n')

/-- No newline in the texts of a resource. -/
def Resource.oneLine (r : Resource) : Bool :=
  Wayfinder.oneLine r.name && r.modules.all Wayfinder.oneLine && r.queryParameters.all fun p => Wayfinder.oneLine p.name

/-- No newline in the text of a segment. -/
def PathSegment.oneLine : PathSegment → Bool
  | .static s => Wayfinder.oneLine s
  | .dynamic p => Wayfinder.oneLine p.name

mutual
/-- No newline in the texts of a configuration that are written into `match_route`. -/
def Routes.oneLine : Routes → Bool
  | .mk rs ns qs => rs.all Resource.oneLine && (qs.all fun p => Wayfinder.oneLine p.name) && nestedOneLine ns
/-- The same for a list of children. -/
def nestedOneLine : List NestedRoutes → Bool
  | [] => true
  | n :: ns => n.oneLine && nestedOneLine ns
/-- The same for a child. -/
def NestedRoutes.oneLine : NestedRoutes → Bool
  | .mk seg r => seg.oneLine && r.oneLine
end

/-- The number of lines of a text that ends with a newline. -/
def lineCount (s : Str) : Nat := s.count '\n'

/-- The lines of one arm of `match method`: first and last line, and one for every field. -/
def MethodArm.lineCount (a : MethodArm) : Nat := 2 + a.captures.length + a.nones.length

end Wayfinder
