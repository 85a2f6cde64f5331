import Verif.Model.Cli
import Verif.Spec.Open
import Verif.Spec.Words
/-!
# Specification vocabulary: following redirects

`Match::Redirect(route)` tells a server to send its client to `route.to_path()` (`examples/cli/src/main.rs:17-23`).  A client
that follows it asks for this path with the verb of its first request.
-/

namespace Wayfinder
open Rust

/-- A request is answered by a redirect, with the value `v`, to the path `next`. -/
def Hop {W : World} (display : W.V → Str) (headers : List Tok) (text : Str) (verb path : Bytes) (v : RouteVal W) (next : Str) : Prop :=
  callText W headers text path verb = .redirect v ∧
    ∃ m b, readText headers text = some (m, b) ∧ routeToPath display m v = some next

/-- The paths to which a client is sent one after the other. -/
inductive Hops (W : World) (display : W.V → Str) (headers : List Tok) (text : Str) (verb : Bytes) : Bytes → List Str → Prop where
  | done (path : Bytes) : Hops W display headers text verb path []
  | hop {path : Bytes} {v : RouteVal W} {next : Str} {more : List Str} : Hop display headers text verb path v next →
      Hops W display headers text verb (utf8 next) more → Hops W display headers text verb path (next :: more)

/-- The same struct with the same values, where the fields may be given in another order. -/
def RouteVal.Same {W : World} (v v' : RouteVal W) : Prop :=
  v.modules = v'.modules ∧ v.name = v'.name ∧ v.params.Perm v'.params ∧ v.nones.Perm v'.nones

/-- What a redirect names has the verb of the redirect, is the first of its block for it, and its route withholds nothing. -/
def Forwarding (r : Routes) : Prop :=
  ∀ segs query red, Declares r segs query red → red.isRedirect = true →
    ∀ segs' query' res, Declares r segs' query' res → res.isRedirect = false →
      SameName res.modules res.name red.modules red.name →
      res.method = red.method ∧ ∃ above node before after, Wide r segs' above node ∧
        node.resources = before ++ res :: after ∧ ∀ o ∈ before, o.method ≠ res.method

end Wayfinder
