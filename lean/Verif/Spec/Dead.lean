import Verif.Spec.Router
/-!
# Specification vocabulary: resources that can answer

A list that can be computed from a configuration alone.
-/

namespace Wayfinder

/-- The first resource for every verb. -/
def firstPerVerb : List Resource → List Resource
  | [] => []
  | x :: xs => x :: (firstPerVerb xs).filter fun y => y.method ≠ x.method

/-- A child among its siblings is ever entered: a static child needs that there are no parameters, or no other static ones; of several
parameters the alphabetically first is entered. -/
def canEnter (siblings : List NestedRoutes) : PathSegment → Bool
  | .static s => decide (paramNames siblings = []) || decide (staticTexts siblings = [s])
  | .dynamic p => decide (captor siblings = some p.name)

mutual
/-- The resources of a configuration that can answer a request. -/
def answering : Routes → List Resource
  | .mk resources routes _ => firstPerVerb resources ++ answeringIn routes routes
/-- Those in some of the children of a block. -/
def answeringIn (siblings : List NestedRoutes) : List NestedRoutes → List Resource
  | [] => []
  | .mk seg sub :: rest => (if canEnter siblings seg then answering sub else []) ++ answeringIn siblings rest
end

mutual
/-- All resources of a configuration. -/
def resourcesOf : Routes → List Resource
  | .mk resources routes _ => resources ++ resourcesOfIn routes
/-- Those in some children. -/
def resourcesOfIn : List NestedRoutes → List Resource
  | [] => []
  | .mk _ sub :: rest => resourcesOf sub ++ resourcesOfIn rest
end

/-- The names of actions (not redirects) in a list of resources. -/
def actionNames (l : List Resource) : List (List Str × Str) :=
  (l.filter fun x => !x.isRedirect).map fun x => (x.modules, x.name)

/-- The actions that no request leads to. -/
def deadActions (r : Routes) : List (List Str × Str) :=
  (actionNames (resourcesOf r)).filter fun a => a ∉ actionNames (answering r)

end Wayfinder
