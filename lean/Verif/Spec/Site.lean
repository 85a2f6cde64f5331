import Verif.Spec.Client
/-!
# Specification vocabulary: references that stay on the site
-/

namespace Wayfinder
open Rust

/-- A reference to a path on the same host (RFC 3986, 4.2): it begins with one slash.  A reference that begins with two slashes names
another host. -/
def OnSite (s : Str) : Prop := ∃ rest, s = '/' :: rest ∧ rest.head? ≠ some '/'

/-- The first segment is fixed, or there is none. -/
def FixedStart (segs : List PathSegment) : Prop := ∀ p more, segs ≠ .dynamic p :: more

/-- What the redirects name has routes with fixed first segments. -/
def FixedTargets (r : Routes) : Prop :=
  ∀ segs query red, Declares r segs query red → red.isRedirect = true →
    ∀ segs' query' res, Declares r segs' query' res → res.isRedirect = false →
      SameName res.modules res.name red.modules red.name → FixedStart segs'

end Wayfinder
