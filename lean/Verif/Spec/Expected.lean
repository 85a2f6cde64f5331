import Verif.Spec.Grammar
/-!
# Specification vocabulary: what a report on a rejected route file should mean

Only about texts and the grammar of route files.
-/

namespace Wayfinder

/-- The text can be completed to a route file. -/
def Completable (cfg : ParseCfg) (t : Str) : Prop := ∃ u c, FileText cfg c (t ++ u)

/-- The texts that a message asks for. -/
inductive AsksFor : Str → Str → Prop where
  | colon : AsksFor c!"Expected \":\"" c!":"
  | brace : AsksFor c!"Expected a \"}\"" c!"}"
  | bracket : AsksFor c!"Expected a \"]\"" c!"]"
  | lf : AsksFor c!"Expected a newline" c!"\n"
  | crlf : AsksFor c!"Expected a newline" c!"\r\n"

/-- `Apt cfg P k before after`: an entry of the kind `k` of a report is right at this place, if `P` are the texts in order.
A message that asks for a text: with it, the text is in order, and it is not there.  The message about resources and child routes:
any resource or child of one level would be in order.  The message about routes: any block of one level would be in order. -/
def Apt (cfg : ParseCfg) (P : Str → Prop) (k : Kind) (before after : Str) : Prop :=
  ∀ m, k = .custom m →
    (∀ s, AsksFor m s → P (before ++ s) ∧ ¬ s <+: after) ∧
    (m = c!"Expected resources or child routes" → ∃ level,
      (∀ x t, ResourceText cfg level x t → P (before ++ t)) ∧ ∀ n t, ChildTexts cfg level [n] t → P (before ++ t)) ∧
    (m = c!"In routes starting here" → ∃ level, ∀ r t, BlockText cfg level r t → P (before ++ t))

end Wayfinder
