import Verif.Model.Parse
/-!
# Specification vocabulary: positions of parse errors
-/

namespace Wayfinder

/-- Every position recorded in an error context is a suffix of `i`. -/
def Ctx.Within (i : Str) : Ctx → Prop
  | .code j _ => j <:+ i
  | .list v => ∀ x ∈ v, x.1 <:+ i

/-- The remaining input, or every position of the error, is a suffix of `i`. -/
def Res.Within {α : Type} (i : Str) : Res α → Prop
  | .ok rest _ => rest <:+ i
  | .error c => c.Within i
  | .failure c => c.Within i

end Wayfinder
