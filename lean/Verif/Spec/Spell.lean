import Verif.Spec.Words
/-!
# Specification vocabulary: the words that reach the emitted file as names

Unlike `Words`, which asks for names everywhere, `Spelt` speaks only of those words of a configuration that are written
into the emitted file as names of Rust.
-/

namespace Wayfinder.Rust

/-- The names in the value that is returned for a resource: its modules, its own name, and the fields, which are the
parameters of the route and of the query. -/
structure ValueSpelt (segs : List PathSegment) (query : List Param) (res : Resource) : Prop where
  modules : ∀ m ∈ res.modules, isName (toSnakeCase m) = true ∧ isName (toCapsCase m) = true
  name : isName (toCapsCase res.name) = true
  fields : ∀ p ∈ routeParams segs ++ query ++ res.queryParameters, isName p.name = true

/-- The words that are written as names are names. -/
structure Spelt (r : Routes) : Prop where
  /-- actions, on whatever route: their structs are declared, with the types of the fields -/
  actions : ∀ {segs query res}, Declares r segs query res → res.isRedirect = false → ValueSpelt segs query res ∧
    ∀ p ∈ routeParams segs ++ query ++ res.queryParameters, isName p.typ = true
  /-- redirects for which code is emitted: no struct is declared for them, so types are not written -/
  redirects : ∀ {segs query res}, Emitted r segs query res → res.isRedirect = true → ValueSpelt segs query res
  /-- parameters for which code is emitted: they are variables -/
  variables : ∀ {segs query node}, LiveRoute r segs query node → ∀ p, .dynamic p ∈ segs → isName p.name = true

/-- No resource is a redirect. -/
def NoRedirects (r : Routes) : Prop :=
  ∀ segs query res, Declares r segs query res → res.isRedirect = false

end Wayfinder.Rust
