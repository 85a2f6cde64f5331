import Verif.Spec.Path
import Verif.Spec.Elab
import Verif.Spec.Words
/-!
# Specification vocabulary: links to actions
-/

namespace Wayfinder
open Rust

/-- What the emitted `to_path` returns for the action `res`, with these values of its path parameters. -/
def linkTo {W : World} (c : RouteConfig) (display : W.V → Str) (res : Resource) (caps : Caps W) : Option Str :=
  callToPath display (headerToks c.headers) (codegen c).text (res.modules.map toSnakeCase) (toCapsCase res.name)
    (caps.map fun pv => (pv.1.name, pv.2))

/-- Two routes with values for their parameters read the same, segment by segment. -/
inductive ReadSame {W : World} (display : W.V → Str) : List PathSegment → Caps W → List PathSegment → Caps W → Prop where
  | nil : ReadSame display [] [] [] []
  | fixed {segs segs' : List PathSegment} {caps caps' : Caps W} (s : Str) : ReadSame display segs caps segs' caps' →
      ReadSame display (.static s :: segs) caps (.static s :: segs') caps'
  | left {segs segs' : List PathSegment} {caps caps' : Caps W} (p : Param) (v : W.V) : ReadSame display segs caps segs' caps' →
      ReadSame display (.dynamic p :: segs) ((p, v) :: caps) (.static (display v) :: segs') caps'
  | right {segs segs' : List PathSegment} {caps caps' : Caps W} (p : Param) (v : W.V) : ReadSame display segs caps segs' caps' →
      ReadSame display (.static (display v) :: segs) caps (.dynamic p :: segs') ((p, v) :: caps')
  | both {segs segs' : List PathSegment} {caps caps' : Caps W} (p p' : Param) {v v' : W.V} : display v = display v' →
      ReadSame display segs caps segs' caps' →
      ReadSame display (.dynamic p :: segs) ((p, v) :: caps) (.dynamic p' :: segs') ((p', v') :: caps')

/-- The routes have the same number of segments, and where both are fixed they are the same. -/
inductive Overlap : List PathSegment → List PathSegment → Prop where
  | nil : Overlap [] []
  | fixed {segs segs' : List PathSegment} (s : Str) : Overlap segs segs' → Overlap (.static s :: segs) (.static s :: segs')
  | left {segs segs' : List PathSegment} (p : Param) (s : Str) : Overlap segs segs' → Overlap (.dynamic p :: segs) (.static s :: segs')
  | right {segs segs' : List PathSegment} (p : Param) (s : Str) : Overlap segs segs' → Overlap (.static s :: segs) (.dynamic p :: segs')
  | both {segs segs' : List PathSegment} (p p' : Param) : Overlap segs segs' → Overlap (.dynamic p :: segs) (.dynamic p' :: segs')

/-- The values have texts without slashes. -/
def Slashless {W : World} (display : W.V → Str) (caps : Caps W) : Prop := ∀ pv ∈ caps, '/' ∉ display pv.2

/-- And these are not empty. -/
def Wordy {W : World} (display : W.V → Str) (caps : Caps W) : Prop := ∀ pv ∈ caps, display pv.2 ≠ [] ∧ '/' ∉ display pv.2

end Wayfinder
