import Verif.Spec.Config
import Verif.Spec.Router
import Verif.Spec.Shape
import Verif.Model.Gen
/-!
# Specification vocabulary: paths that are instances of a declared route

Nothing here refers to the trie, the generated program or the reference router's recursion.
-/

namespace Wayfinder

/-- The bytes of a verb in a request. -/
def verbBytes : Method → Bytes
  | .get => [71, 69, 84]
  | .post => [80, 79, 83, 84]
  | .put => [80, 85, 84]
  | .delete => [68, 69, 76, 69, 84, 69]

/-- Every segment followed by a `/`. -/
def spell (parts : List Bytes) : Bytes := parts.flatMap fun p => p ++ [slash]

/-- The path `bs` consists of the segments `parts`; the last `/` is optional. -/
def Spells (parts : List Bytes) (bs : Bytes) : Prop := bs = spell parts ∨ bs ++ [slash] = spell parts

/-- `Fits W segs caps parts`: the route `segs` with its parameters replaced by texts gives the
segments `parts`; each text is free of `/`, is UTF-8 and parses as the declared type of its
parameter, with the values `caps`. -/
inductive Fits (W : World) : List PathSegment → Caps W → List Bytes → Prop where
  | nil : Fits W [] [] []
  | static {segs caps parts} (s : Str) : Fits W segs caps parts →
      Fits W (.static s :: segs) caps (bytesOf s :: parts)
  | dynamic {segs caps parts} {p : Param} {v : W.V} {part : Bytes} {text : Str} :
      slash ∉ part → fromUtf8 part = some text → W.parse p.typ text = .ok v →
      Fits W segs caps parts → Fits W (.dynamic p :: segs) ((p, v) :: caps) (part :: parts)

/-- One leading `/` is dropped. -/
def stripSlash : Bytes → Bytes
  | [] => []
  | b :: bs => if b = slash then bs else b :: bs

/-- The path goes on behind `parts` with the segment `part`. -/
def GoesOn (parts : List Bytes) (part : Bytes) (bs : Bytes) : Prop :=
  slash ∉ part ∧ ∃ rest, bs = spell parts ++ part ++ rest ∧ (rest = [] ∨ ∃ more, rest = slash :: more)

/-- The configuration `r`, compiled to `body`, is one the generator and rustc accept and whose
parameters do not clash with the generated function's own variables. -/
structure Supported (r : Routes) (body : List Stmt) : Prop where
  generated : matcherBody r = .ok body
  compiles : compiles body = true
  hygienic : Hygienic r

end Wayfinder
