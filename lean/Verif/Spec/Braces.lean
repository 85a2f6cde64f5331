import Verif.Spec.Path
/-!
# Specification vocabulary: braces in static texts

The text of a static segment is copied into a byte string of `match_route`, where a brace is a brace, and into the template of a
`format!`, where braces have to be doubled and come out single.  Route files have no braces in texts; configurations made
with the API may have.
-/

namespace Wayfinder

/-- Every brace of the first text is doubled, and the second has one for each pair. -/
inductive Doubled : Str → Str → Prop where
  | nil : Doubled [] []
  | char {c : Char} {s t : Str} : c ≠ '{' → c ≠ '}' → Doubled s t → Doubled (c :: s) (c :: t)
  | opening {s t : Str} : Doubled s t → Doubled ('{' :: '{' :: s) ('{' :: t)
  | closing {s t : Str} : Doubled s t → Doubled ('}' :: '}' :: s) ('}' :: t)

/-- What `format!` prints for a template and the texts of the arguments: braces are doubled or hold the place of an argument, and
every argument has its place. -/
inductive Formats : Str → List Str → Str → Prop where
  | nil : Formats [] [] []
  | char {c : Char} {s t : Str} {args : List Str} : c ≠ '{' → c ≠ '}' → Formats s args t → Formats (c :: s) args (c :: t)
  | opening {s t : Str} {args : List Str} : Formats s args t → Formats ('{' :: '{' :: s) args ('{' :: t)
  | closing {s t : Str} {args : List Str} : Formats s args t → Formats ('}' :: '}' :: s) args ('}' :: t)
  | place {s t a : Str} {args : List Str} : Formats s args t → Formats ('{' :: '}' :: s) (a :: args) (a ++ t)

/-- On the routes of actions all braces are doubled. -/
def BracesPaired (r : Routes) : Prop :=
  ∀ segs query res, Declares r segs query res → res.isRedirect = false → ∀ s, .static s ∈ segs → ∃ t, Doubled s t

/-- The texts of a link: those of the segments of a route, with values for its parameters, and with single braces. -/
inductive LinkTexts {W : World} (display : W.V → Str) : List PathSegment → Caps W → List Str → Prop where
  | nil : LinkTexts display [] [] []
  | static {segs caps texts s t} : Doubled s t → LinkTexts display segs caps texts →
      LinkTexts display (.static s :: segs) caps (t :: texts)
  | dynamic {segs caps texts} (p : Param) (v : W.V) : LinkTexts display segs caps texts →
      LinkTexts display (.dynamic p :: segs) ((p, v) :: caps) (display v :: texts)

end Wayfinder
