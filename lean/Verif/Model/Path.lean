import Verif.Model.Gen
/-!
# Meaning of the emitted `to_path` methods

`/repo/wayfinder/src/gen/gen.rs:128-192` writes for every action

```
pub fn to_path(&self) -> String {
    let Struct { ref a, ref b, } = self;
    format!("/people/{}/posts/{}", a, b)
}
```

The model of the text is `renderAction`; this file gives the meaning of the `format!` call.  Not
modelled: escape sequences in the string literal (a text with `"` or `\` has no meaning here) and
format specifications other than `{}`.
-/

namespace Wayfinder

/-- The value of a string literal without escape sequences. -/
def literal (s : Str) : Option Str := if '"' ∈ s ∨ '\\' ∈ s then none else some s

/-- `format!(template, args…)` for texts `args`: `{}` takes the next argument, `{{` and `}}` are braces;
anything else with a brace, too few and too many arguments are compile errors (`none`). -/
def formatText : Str → List Str → Option Str
  | [], [] => some []
  | [], _ :: _ => none
  | '{' :: '}' :: rest, a :: args => (formatText rest args).map (a ++ ·)
  | '{' :: '}' :: _, [] => none
  | '{' :: '{' :: rest, args => (formatText rest args).map ('{' :: ·)
  | '}' :: '}' :: rest, args => (formatText rest args).map ('}' :: ·)
  | '{' :: _, _ => none
  | '}' :: _, _ => none
  | c :: rest, args => (formatText rest args).map (c :: ·)

/-- The texts of variables: the variables `bound` refer to the fields of the same names. -/
def argTexts {V : Type} (display : V → Str) (bound : List Str) (fields : List (Str × V)) :
    List Str → Option (List Str)
  | [] => some []
  | x :: xs =>
    if x ∈ bound then
      match lookupVar x fields, argTexts display bound fields xs with
      | some v, some rest => some (display v :: rest)
      | _, _ => none
    else none

/-- `gen.rs:128-192`: `to_path` of the struct of action `a` with the path parameter fields `fields`;
`display` is the `Display` implementation of the values. -/
def FlattenedAction.toPath {V : Type} (display : V → Str) (a : FlattenedAction)
    (fields : List (Str × V)) : Option Str :=
  match literal a.template, argTexts display a.bound fields a.formatArgs with
  | some template, some args => formatText template args
  | _, _ => none

end Wayfinder
