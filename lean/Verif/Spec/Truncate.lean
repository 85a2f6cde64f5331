import Verif.Spec.Layout
/-!
# Specification vocabulary: route files that end too early
-/

namespace Wayfinder

/-- Lines with their levels, each written on one line of the text. -/
inductive PlainLines (cfg : ParseCfg) : List (Nat × RouteLine) → Str → Prop where
  | nil : PlainLines cfg [] []
  | cons {level : Nat} {l : RouteLine} {ls : List (Nat × RouteLine)} {t e u : Str} : LineText cfg level l t → OneLine t → Eols e → e ≠ [] →
      PlainLines cfg ls u → PlainLines cfg ((level, l) :: ls) (t ++ e ++ u)

/-- `Begins r' r`: the first block is the beginning of the second one, up to the end of a resource or of one of its query parameters. -/
inductive Begins : Routes → Routes → Prop where
  | resource (done : List Resource) (x : Resource) (more : List Resource) (ns : List NestedRoutes) (qs : List Param) {own : List Param} :
      own <+: x.queryParameters →
      Begins (.mk (done ++ [{ x with queryParameters := own }]) [] qs) (.mk (done ++ x :: more) ns qs)
  | child (rs : List Resource) (done : List NestedRoutes) (seg : PathSegment) {r' r : Routes} (more : List NestedRoutes) (qs : List Param) :
      Begins r' r → Begins (.mk rs (done ++ [.mk seg r']) qs) (.mk rs (done ++ .mk seg r :: more) qs)

mutual
/-- What a block declares, in the order of the file: routes, query parameters of blocks, resources. -/
def Routes.inOrder : Routes → List PathSegment → List Param → List (List PathSegment × List Param × Resource)
  | .mk rs ns qs, segs, above => rs.map (fun x => (segs, above ++ qs, x)) ++ childrenInOrder ns segs (above ++ qs)
/-- What children declare. -/
def childrenInOrder : List NestedRoutes → List PathSegment → List Param → List (List PathSegment × List Param × Resource)
  | [], _, _ => []
  | n :: ns, segs, above => n.inOrder segs above ++ childrenInOrder ns segs above
/-- What a child declares. -/
def NestedRoutes.inOrder : NestedRoutes → List PathSegment → List Param → List (List PathSegment × List Param × Resource)
  | .mk s r, segs, above => r.inOrder (segs ++ [s]) above
end

/-- The last line is a resource, or a query parameter behind one. -/
def EndsInResource (ls : List (Nat × RouteLine)) : Prop :=
  ∃ before k m b ms x qs, ls = before ++ (k, .resource m b ms x) :: qs ∧ ∀ y ∈ qs, ∃ j p, y = (j, .query p)

end Wayfinder
