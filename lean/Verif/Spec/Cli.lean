import Verif.Model.Cli
import Verif.Spec.Words
import Verif.Spec.Instance
import Verif.Spec.Exact
import Verif.Spec.Types
/-!
# Specification vocabulary: what the example program prints
-/

namespace Wayfinder
open Rust

/-- The texts of the segments of a route: static ones as they are, parameters as the texts of the values of their names. -/
inductive Spelled {V : Type} (display : V → Str) (vals : List (Str × V)) : List PathSegment → List Str → Prop where
  | nil : Spelled display vals [] []
  | static {segs texts} (s : Str) : Spelled display vals segs texts → Spelled display vals (.static s :: segs) (s :: texts)
  | dynamic {segs texts} {p : Param} {v : V} : (p.name, v) ∈ vals → Spelled display vals segs texts →
      Spelled display vals (.dynamic p :: segs) (display v :: texts)

/-- The texts of the fields for parameters. -/
inductive FieldTexts {V : Type} (debug : V → Str) (vals : List (Str × V)) : List Param → List Str → Prop where
  | nil : FieldTexts debug vals [] []
  | cons {ps texts} {p : Param} {v : V} : (p.name, v) ∈ vals → FieldTexts debug vals ps texts →
      FieldTexts debug vals (p :: ps) ((p.name ++ c!": " ++ debug v) :: texts)

/-- A struct with the texts of its fields. -/
def structText (name : Str) (fields : List Str) : Str :=
  if fields = [] then name else name ++ c!" { " ++ List.intercalate c!", " fields ++ c!" }"

/-- A text in variants of enums. -/
def inVariants (variants : List Str) (inner : Str) : Str :=
  (variants.map (· ++ c!"(")).flatten ++ inner ++ List.replicate variants.length ')'

/-- `Shows pr r v text path`: the value `v` of the outermost enum `Route` is printed as `text`, and its path is `path`.  The value is
one of the struct of an action declared in `r`; its path is the route of that action with the `Display` texts of the values, and
its text gives the fields in the order of declaration, `None` for query parameters. -/
inductive Shows {W : World} (pr : Printer W) (r : Routes) (v : RouteVal W) : Str → Str → Prop where
  | mk {segs query res vals texts fields} : Declares r segs query res → res.isRedirect = false →
      v.modules = res.modules.map toCapsCase → v.name = toCapsCase res.name →
      v.params = vals.map (fun x => (x.1, .user x.2)) → (vals.map Prod.fst).Nodup →
      Spelled pr.display vals segs texts → FieldTexts pr.debug vals (routeParams segs) fields →
      Shows pr r v
        (inVariants (v.modules ++ [v.name])
          (structText v.name (fields ++ (query ++ res.queryParameters).map fun p => p.name ++ c!": None")))
        (c!"/" ++ List.intercalate c!"/" texts)

/-- Two lines on standard output. -/
def Session.lines (a b : Str) : Session := ⟨a ++ c!"\n" ++ b ++ c!"\n", [], .returned⟩

/-- What is printed about the outcome of `match_route`. -/
inductive Reports {W : World} (pr : Printer W) (r : Routes) : Outcome W → Session → Prop where
  | notFound : Reports pr r .notFound (.lines c!"Parsed: Ok(Match::NotFound)" c!"No matching route.")
  | notAllowed : Reports pr r .notAllowed (.lines c!"Parsed: Ok(Match::NotAllowed)" c!"Route does not support method.")
  | route {v text path} : Shows pr r v text path →
      Reports pr r (.route v) (.lines (c!"Parsed: Ok(Match::Route(" ++ text ++ c!"))") (c!"Route to " ++ path))
  | redirect {v text path} : Shows pr r v text path →
      Reports pr r (.redirect v) (.lines (c!"Parsed: Ok(Match::Redirect(" ++ text ++ c!"))") (c!"Redirect to " ++ path))
  | error {x e} : Reports pr r (.err x e)
      (.lines (c!"Parsed: Err(wayfinder::Error { param: \"" ++ x ++ c!"\", what: " ++ pr.debugErr e ++ c!" })")
        (c!"Error: Error parsing '" ++ x ++ c!"' parameter " ++ pr.debugErr e))
  | panic : Reports pr r .panic ⟨[], [], .panicked⟩

end Wayfinder
