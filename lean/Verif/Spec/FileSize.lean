import Verif.Spec.Size
import Mathlib.Data.List.Infix
import Mathlib.Data.List.Dedup
/-!
# The size of the emitted file

What is written besides `match_route`: a struct with its `to_path` for every action, a module for every
name on the way to an action, the headers once for every module, and the configuration as a comment.
-/

namespace Wayfinder

/-- No newline in a parameter. -/
def Param.oneLine (p : Param) : Bool := Wayfinder.oneLine p.name && Wayfinder.oneLine p.typ

/-- No newline in a resource, the types included. -/
def Resource.oneLined (r : Resource) : Bool :=
  Wayfinder.oneLine r.name && r.modules.all Wayfinder.oneLine && r.queryParameters.all Param.oneLine

/-- No newline in a segment, the type included. -/
def PathSegment.oneLined : PathSegment → Bool
  | .static s => Wayfinder.oneLine s
  | .dynamic p => p.oneLine

mutual
/-- No newline in any text of a configuration. -/
def Routes.oneLined : Routes → Bool
  | .mk rs ns qs => rs.all Resource.oneLined && qs.all Param.oneLine && nestedOneLined ns
/-- The same for a list of children. -/
def nestedOneLined : List NestedRoutes → Bool
  | [] => true
  | n :: ns => n.oneLined && nestedOneLined ns
/-- The same for a child. -/
def NestedRoutes.oneLined : NestedRoutes → Bool
  | .mk seg r => seg.oneLined && r.oneLined
end

mutual
/-- The actions below a block that is inside of `fields` parameters of the path and of enclosing blocks:
the module of each, and the number of its fields. -/
def Routes.structs (fields : Nat) : Routes → List (List Str × Nat)
  | .mk rs ns qs => ((rs.filter fun x => !x.isRedirect).map fun x =>
      (x.modules, fields + qs.length + x.queryParameters.length)) ++ nestedStructs (fields + qs.length) ns
/-- The same for a list of children. -/
def nestedStructs (fields : Nat) : List NestedRoutes → List (List Str × Nat)
  | [] => []
  | n :: ns => n.structs fields ++ nestedStructs fields ns
/-- The same for a child. -/
def NestedRoutes.structs (fields : Nat) : NestedRoutes → List (List Str × Nat)
  | .mk (.static _) r => r.structs fields
  | .mk (.dynamic _) r => r.structs (fields + 1)
end

/-- The modules that are declared: every name on the way to an action, once. -/
def Routes.moduleNames (r : Routes) : List (List Str) :=
  ((r.structs 0).flatMap fun x => x.1.inits.filter (· ≠ [])).dedup

mutual
/-- The lines of a printed block: one for every query parameter, resource, query parameter of a resource
and child. -/
def Routes.itemCount : Routes → Nat
  | .mk rs ns qs => qs.length + (rs.map fun x => 1 + x.queryParameters.length).sum + nestedItemCount ns
/-- The same for a list of children. -/
def nestedItemCount : List NestedRoutes → Nat
  | [] => 0
  | n :: ns => n.itemCount + nestedItemCount ns
/-- The same for a child. -/
def NestedRoutes.itemCount : NestedRoutes → Nat
  | .mk _ r => 1 + r.itemCount
end

/-- The lines for an action with a number of fields: a fixed number, its two arms in the enum of the
module included; one for every field; and two more if there are fields at all. -/
def structLines (fields : Nat) : Nat := 13 + if fields = 0 then 0 else 2 + fields

/-- The lines of the headers: they end with an empty line. -/
def headerLines (headers : List Header) : Nat :=
  if headers = [] then 0 else (headers.map fun h => 1 + lineCount h.text).sum + 1

/-- The lines of an emitted file besides the statements of `match_route`: the fixed text; the printed
configuration; the actions; and 17 lines and the headers for every module, the outermost not counted. -/
def declarationLines (c : RouteConfig) : Nat :=
  121 + c.routes.itemCount + ((c.routes.structs 0).map fun x => structLines x.2).sum
    + 17 * c.routes.moduleNames.length + (1 + c.routes.moduleNames.length) * headerLines c.headers

end Wayfinder
