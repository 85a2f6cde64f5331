import Verif.Spec.File
/-!
# Specification vocabulary: the grammar of route files

The texts of a configuration, as a context-free grammar with indentation.  Nothing here says how a text is
read; see `Props/Grammar.lean`.
-/

namespace Wayfinder

/-- Equal up to the case of ASCII letters. -/
def SameLetters (s t : Str) : Prop := s.map Char.toLower = t.map Char.toLower

/-- Indentation: two blanks per level. -/
def spaces (k : Nat) : Str := List.replicate (2 * k) ' '

/-- Any number of line endings. -/
inductive Eols : Str → Prop where
  | nil : Eols []
  | lf {t : Str} : Eols t → Eols ('\n' :: t)
  | crlf {t : Str} : Eols t → Eols ('\r' :: '\n' :: t)

/-- Any number of blanks, tabs, carriage returns and line feeds. -/
def Blanks (t : Str) : Prop := ∀ c ∈ t, c = ' ' ∨ c = '\t' ∨ c = '\r' ∨ c = '\n'

/-- `name : type` with any blanks around and between. -/
inductive ParamText (cfg : ParseCfg) : Param → Str → Prop where
  | mk {name typ a b c d : Str} : Word cfg name → Word cfg typ → Blanks a → Blanks b → Blanks c → Blanks d →
      ParamText cfg ⟨name, typ⟩ (a ++ name ++ b ++ c!":" ++ c ++ typ ++ d)

/-- A path segment: a word, or a parameter in braces. -/
inductive SegmentText (cfg : ParseCfg) : PathSegment → Str → Prop where
  | static {s : Str} : Word cfg s → SegmentText cfg (.static s) s
  | dynamic {p : Param} {t : Str} : ParamText cfg p t → SegmentText cfg (.dynamic p) (c!"{" ++ t ++ c!"}")

/-- Query parameters in brackets, each on a line of its own. -/
inductive QueryLines (cfg : ParseCfg) (level : Nat) : List Param → Str → Prop where
  | nil : QueryLines cfg level [] []
  | cons {p : Param} {ps : List Param} {t e u : Str} : ParamText cfg p t → Eols e → e ≠ [] →
      QueryLines cfg level ps u →
      QueryLines cfg level (p :: ps) (spaces level ++ c!"[" ++ t ++ c!"]" ++ e ++ u)

/-- The name of an action behind the names of its modules, separated by `::` with any blanks around. -/
inductive TargetText (cfg : ParseCfg) : List Str → Str → Str → Prop where
  | name {x : Str} : Word cfg x → TargetText cfg [] x x
  | module {m x t a b : Str} {ms : List Str} : Word cfg m → Blanks a → Blanks b → TargetText cfg ms x t →
      TargetText cfg (m :: ms) x (m ++ a ++ c!"::" ++ b ++ t)

/-- The arrow of a redirect, with any blanks around; nothing otherwise. -/
inductive ArrowText : Bool → Str → Prop where
  | none : ArrowText false []
  | arrow {a b : Str} : Blanks a → Blanks b → ArrowText true (a ++ c!"->" ++ b)

/-- The verbs, in any case. -/
def VerbText : Method → Str → Prop
  | .get, v => SameLetters v c!"GET"
  | .post, v => SameLetters v c!"POST"
  | .put, v => SameLetters v c!"PUT"
  | .delete, v => SameLetters v c!"DELETE"

/-- A resource: verb, one blank, target; below it its query parameters, one level deeper. -/
inductive ResourceText (cfg : ParseCfg) (level : Nat) : Resource → Str → Prop where
  | mk {x : Resource} {v a t e u : Str} : VerbText x.method v → ArrowText x.isRedirect a →
      TargetText cfg x.modules x.name t → Eols e → e ≠ [] → QueryLines cfg (level + 1) x.queryParameters u →
      ResourceText cfg level x (spaces level ++ v ++ c!" " ++ a ++ t ++ e ++ u)

/-- Resources, one after the other. -/
inductive ResourceTexts (cfg : ParseCfg) (level : Nat) : List Resource → Str → Prop where
  | nil : ResourceTexts cfg level [] []
  | cons {x : Resource} {xs : List Resource} {t u : Str} : ResourceText cfg level x t →
      ResourceTexts cfg level xs u → ResourceTexts cfg level (x :: xs) (t ++ u)

mutual
/-- A block: query parameters, resources, children; it has a resource or a child. -/
inductive BlockText (cfg : ParseCfg) : Nat → Routes → Str → Prop where
  | mk {level : Nat} {qs : List Param} {rs : List Resource} {ns : List NestedRoutes} {t u v : Str} :
      QueryLines cfg level qs t → ResourceTexts cfg level rs u → ChildTexts cfg level ns v →
      (rs ≠ [] ∨ ns ≠ []) → BlockText cfg level (.mk rs ns qs) (t ++ u ++ v)
/-- Children: a path segment on a line of its own, and its block one level deeper. -/
inductive ChildTexts (cfg : ParseCfg) : Nat → List NestedRoutes → Str → Prop where
  | nil {level : Nat} : ChildTexts cfg level [] []
  | cons {level : Nat} {seg : PathSegment} {r : Routes} {ns : List NestedRoutes} {s e t u : Str} :
      SegmentText cfg seg s → Eols e → e ≠ [] → BlockText cfg (level + 1) r t → ChildTexts cfg level ns u →
      ChildTexts cfg level (.mk seg r :: ns) (spaces level ++ s ++ e ++ t ++ u)
end

/-- Headers, each on a line of its own. -/
inductive HeaderLines : List Header → Str → Prop where
  | nil : HeaderLines [] []
  | cons {h : Header} {hs : List Header} {e u : Str} : h.Written → Eols e → e ≠ [] → HeaderLines hs u →
      HeaderLines (h :: hs) (h.text ++ e ++ u)

/-- A route file: headers, a line with `/`, the outermost block. -/
inductive FileText (cfg : ParseCfg) : RouteConfig → Str → Prop where
  | mk {headers : List Header} {routes : Routes} {e h e' t : Str} : Eols e → HeaderLines headers h → Eols e' →
      e' ≠ [] → BlockText cfg 1 routes t → FileText cfg ⟨headers, routes⟩ (e ++ h ++ c!"/" ++ e' ++ t)

end Wayfinder
