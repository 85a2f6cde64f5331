import Verif.Proofs.Trie
/-!
# Specification of the prefix tree

A history of insertions and the finite map it describes.
-/

namespace Wayfinder

/-- A sequence of insertions into an empty tree, each continuing with the tree the previous one
returned; a failed insertion ends the history. -/
inductive Grown {K V : Type} (cmp : K → K → Ordering) : List (List K × V) → Trie K V → Prop where
  | empty : Grown cmp [] Trie.new
  | add {es : List (List K × V)} {t t' : Trie K V} {ks : List K} {v : V} :
      Grown cmp es t → t.add cmp ks v = .ok t' → Grown cmp (es ++ [(ks, v)]) t'

/-- The value of a path in a list of insertions with distinct paths. -/
def lookup {K V : Type} [DecidableEq K] (es : List (List K × V)) (ks : List K) : Option V :=
  (es.find? fun e => e.1 = ks).map Prod.snd

end Wayfinder
