import Verif.Model.Basic
/-!
# Model of `/repo/wayfinder/src/gen/trie.rs`
-/

namespace Wayfinder

/-- `trie.rs:4-11` `struct Trie<K, V> { data: Option<V>, children: Vec<(K, Trie<K, V>)> }`. -/
inductive Trie (K V : Type) where
  | node (data : Option V) (children : List (K × Trie K V))

namespace Trie
variable {K V : Type}

/-- Field access `trie.data`. -/
def data : Trie K V → Option V | node d _ => d
/-- Field access `trie.children`. -/
def children : Trie K V → List (K × Trie K V) | node _ cs => cs

@[simp] theorem data_node (d : Option V) (cs : List (K × Trie K V)) : (node d cs).data = d := rfl
@[simp] theorem children_node (d : Option V) (cs : List (K × Trie K V)) :
    (node d cs).children = cs := rfl

/-- `trie.rs:24-29` `Trie::new`. -/
def new : Trie K V := node none []

end Trie

/-- The loop of `slice::binary_search_by` in Rust's standard library (the version current when
the crate was written): `size` is the remaining window, `base` its start; the window is halved
until one element is left.  `cmp` compares the element at an index with the searched key.
The recursion is on `fuel`, which the caller sets to the slice length (the window shrinks on
every turn). -/
def binarySearchLoop (cmp : Nat → Ordering) : (fuel base size : Nat) → Nat
  | 0, base, _ => base
  | fuel + 1, base, size =>
    if size > 1 then
      let half := size / 2
      let mid := base + half
      let base' := if cmp mid = .gt then base else mid
      binarySearchLoop cmp fuel base' (size - half)
    else base

/-- `slice::binary_search_by_key(&c, |p| p.0.clone())` as used at `trie.rs:63`: `Sum.inl i` is
`Ok(i)` (found at `i`), `Sum.inr i` is `Err(i)` (absent, would be inserted at `i`). -/
def binarySearchByKey {K V : Type} (cmp : K → K → Ordering) (xs : List (K × V)) (c : K) :
    Nat ⊕ Nat :=
  let cmpAt := fun i => match xs[i]? with
    | some p => cmp p.1 c
    | none => .gt
  if xs.length = 0 then .inr 0
  else
    let base := binarySearchLoop cmpAt xs.length 0 xs.length
    match cmpAt base with
    | .eq => .inl base
    | .lt => .inr (base + 1)
    | .gt => .inr base

namespace Trie
variable {K V : Type}

/-- `trie.rs:43-81` `Trie::add`.  `cmp` is the key order (`K: Ord`).  The error carries what the
Rust code returns: the node on which the recursive call failed, and the element.  Note that
`tr.add(path, data).map(..)` at lines 67 and 75 does not rebuild the parent on `Err`. -/
def add (cmp : K → K → Ordering) : Trie K V → List K → V → Except (Trie K V × V) (Trie K V)
  | node d cs, [], v =>
    match d with
    | some _ => .error (node d cs, v)
    | none => .ok (node (some v) cs)
  | node d cs, c :: path, v =>
    match binarySearchByKey cmp cs c with
    | .inr i =>
      match add cmp new path v with
      | .error e => .error e
      | .ok tr => .ok (node d (cs.insertIdx i (c, tr)))
    | .inl i =>
      match cs[i]? with
      | none => .error (node d cs, v) -- unreachable: the search only returns valid indices
      | some (_, tr) =>
        match add cmp tr path v with
        | .error e => .error e
        | .ok tr' => .ok (node d ((cs.eraseIdx i).insertIdx i (c, tr')))

mutual
/-- Height of a trie; used as fuel by the code generator. -/
def depth : Trie K V → Nat
  | node _ cs => 1 + depthList cs
/-- Height of a list of children. -/
def depthList : List (K × Trie K V) → Nat
  | [] => 0
  | kt :: rest => max (depthPair kt) (depthList rest)
/-- Height of one child. -/
def depthPair : K × Trie K V → Nat
  | (_, t) => t.depth
end

mutual
/-- All elements stored in a trie, in pre-order. -/
def datas : Trie K V → List V
  | node d cs => d.toList ++ datasList cs
/-- All elements stored below a list of children. -/
def datasList : List (K × Trie K V) → List V
  | [] => []
  | kt :: rest => datasPair kt ++ datasList rest
/-- All elements stored below one child. -/
def datasPair : K × Trie K V → List V
  | (_, t) => t.datas
end

end Trie

end Wayfinder
