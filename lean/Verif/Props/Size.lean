import Verif.Proofs.Size
import Verif.Tests.Demo
import Mathlib.Data.List.Perm.Subperm
/-!
# C61: the size of `match_route`
-/

namespace Wayfinder

/-- Lists compared by the sums of all weights. -/
theorem subperm_of_weights {α : Type} [DecidableEq α] {l l' : List α}
    (h : ∀ w : α → Nat, sumOver w l ≤ sumOver w l') : l.Subperm l' := by
  rw [List.subperm_ext_iff]
  intro x _
  have hc : ∀ k : List α, sumOver (fun y => if y = x then 1 else 0) k = k.count x := by
    intro k
    induction k with
    | nil => rfl
    | cons a k ih =>
      rw [sumOver_cons, ih, List.count_cons]
      by_cases ha : a = x <;> simp [ha] ; omega
  rw [← hc, ← hc]
  exact h _

theorem compiles_shape {body : List Stmt} (h : compiles body = true) : blockShapeOk body = true := by
  simp only [compiles, Bool.and_eq_true] at h
  exact h.1

variable {r : Routes} {body : List Stmt}

/-- C61: a literal is written at most once for a resource of the root, and at most twice for any other:
before the optional slash at the end of the path, and behind it. -/
theorem C61_twice (hgen : matcherBody r = .ok body) (hc : compiles body = true) :
    (blockLiterals body).Subperm
      (r.ownLiterals [] [] ++ (r.literalsBelow [] [] ++ r.literalsBelow [] [])) := by
  refine subperm_of_weights fun w => ?_
  have := (code_weight w (matcherBody_code hgen (compiles_shape hc))).1
  simp only [CodeKind.due, dynamics, List.filterMap_nil, List.map_nil] at this
  simp only [sumOver_append]
  omega

/-- C61: exactly once and exactly twice, if no block has two parameters as children.  (Of several
parameters all but one are dropped, see C02.) -/
theorem C61_exactly (hgen : matcherBody r = .ok body) (hc : compiles body = true) (h1 : r.oneParam = true) :
    (blockLiterals body).Perm
      (r.ownLiterals [] [] ++ (r.literalsBelow [] [] ++ r.literalsBelow [] [])) := by
  refine (subperm_of_weights fun w => ?_).antisymm (subperm_of_weights fun w => ?_) <;>
  · have := (code_weight w (matcherBody_code hgen (compiles_shape hc))).2 h1
    simp only [CodeKind.due, dynamics, List.filterMap_nil, List.map_nil] at this
    simp only [sumOver_append]
    omega

/-- C61: the function has at most 47 lines for every route, whatever the lengths of the texts and however
they share beginnings, besides the lines of the literals. -/
theorem C61_lines (hgen : matcherBody r = .ok body) (hc : compiles body = true) (h1 : r.oneLine = true) :
    lineCount (matcherText r).text ≤ 6 + 47 * r.nestedCount
      + sumOver MethodArm.lineCount (r.ownLiterals [] [])
      + 2 * sumOver MethodArm.lineCount (r.literalsBelow [] []) := by
  have hcode := matcherBody_code hgen (compiles_shape hc)
  have hl := code_lines hcode
  have hf := code_flat hcode ⟨h1, by simp [dynamics], by simp⟩
  simp only [CodeKind.fits, dynamics, List.filterMap_nil, List.map_nil, Routes.roomBelow] at hl
  simp only [matcherText, hgen, Out.write, block_lineCount 2 body hf]
  omega

/-! ## Examples -/

namespace Demo

/-- The configuration of the tests: the literals of `/`, once, and of the other routes, twice. -/
example : (blockLiterals (bodyOf people)).Perm
    (people.ownLiterals [] [] ++ (people.literalsBelow [] [] ++ people.literalsBelow [] [])) :=
  C61_exactly people_supported.generated people_supported.compiles (by decide +kernel)

/-- Its function is shorter than the bound. -/
example : lineCount (matcherText people).text ≤ 6 + 47 * people.nestedCount
    + sumOver MethodArm.lineCount (people.ownLiterals [] [])
    + 2 * sumOver MethodArm.lineCount (people.literalsBelow [] []) :=
  C61_lines people_supported.generated people_supported.compiles (by decide +kernel)

/-- Two parameters beside a static child. -/
def lossy : Routes :=
  .mk [] [.mk (.static c!"s") (.mk [res .get c!"M" c!"S"] [] []),
    .mk (.dynamic ⟨c!"a", c!"A"⟩) (.mk [res .get c!"M" c!"ShowA"] [] []),
    .mk (.dynamic ⟨c!"b", c!"B"⟩) (.mk [res .get c!"M" c!"ShowB"] [] [])] []

theorem lossy_supported : Supported lossy (bodyOf lossy) := supported_of (by decide +kernel)

/-- One of the parameters is dropped: its resource is written nowhere. -/
example : lossy.oneParam = false ∧ (blockLiterals (bodyOf lossy)).length = 4 ∧
    (lossy.literalsBelow [] []).length = 3 := by decide +kernel

/-- `zw`, `xyzw`, `xyxyzw`, … -/
def combText (k : Nat) : Str := (List.replicate k c!"xy").flatten ++ c!"zw"

/-- The action of this route. -/
def combAction (k : Nat) : Resource := ⟨.get, [], c!"A" ++ List.replicate k 'a', false, []⟩

/-- Routes `/zw`, `/xyzw`, `/xyxyzw`, …: every text branches off all longer ones. -/
def comb (n : Nat) : Routes :=
  .mk [] ((List.range n).map fun k => .mk (.static (combText k)) (.mk [combAction k] [] [])) []

/-- Their flattened routes. -/
def combRoute (k : Nat) : FlattenedRoute := ⟨[.static (combText k)], [combAction k], []⟩

theorem flatten_comb : ∀ ks : List Nat, flattenNesteds (ks.map fun k => .mk (.static (combText k)) (.mk [combAction k] [] [])) [] [] =
    ks.map combRoute
  | [] => rfl
  | k :: ks => by
    rw [List.map_cons, flattenNesteds, flattenNested, flattenRoutes, flatten_comb ks]
    rfl

/-- What is behind `z`. -/
def combTail (k : Nat) : RouteTrie := .node none [(.static 'w', .node none [(.separator, .node (some (combRoute k)) [])])]

/-- The children of the root, for these routes from the shortest to the longest. -/
def combTrie : List Nat → List (Charlike × RouteTrie)
  | [] => []
  | [k] => [(.static 'z', combTail k)]
  | k :: k' :: ks => [(.static 'x', .node none [(.static 'y', .node none (combTrie (k' :: ks)))]), (.static 'z', combTail k)]

/-- The keys of a text. -/
def combKeys (j : Nat) : List Charlike := (List.replicate j [Charlike.static 'x', .static 'y']).flatten ++ [.static 'z', .static 'w', .separator]

theorem combKeys_eq (k : Nat) : charlikes (combRoute k).path = combKeys k := by
  simp [charlikes, combRoute, PathSegment.charlikes, combText, combKeys, List.map_flatten]

theorem add_comb (k : Nat) : ∀ (ks : List Nat) (d : Option FlattenedRoute),
    Trie.add Charlike.cmp (.node d (combTrie ks)) (combKeys ks.length) (combRoute k) = .ok (.node d (combTrie (ks ++ [k])))
  | [], d => rfl
  | [_], d => rfl
  | k1 :: k2 :: ks, d => by
    have ih := add_comb k (k2 :: ks) none
    have e : combKeys (k1 :: k2 :: ks).length = .static 'x' :: .static 'y' :: combKeys (k2 :: ks).length := by
      simp [combKeys, List.replicate_succ]
    rw [e]
    have h1 : ∀ a b : RouteTrie, binarySearchByKey Charlike.cmp [(.static 'x', a), (.static 'z', b)] (.static 'x') = .inl 0 := by
      intro a b
      simp [binarySearchByKey, binarySearchLoop, Charlike.cmp]
    simp only [combTrie]
    rw [Trie.add, h1]
    simp only [List.getElem?_cons_zero]
    have h2 : binarySearchByKey Charlike.cmp [(Charlike.static 'y', Trie.node none (combTrie (k2 :: ks)))] (.static 'y') = .inl 0 := rfl
    rw [Trie.add, h2]
    simp only [List.getElem?_cons_zero, ih]
    rfl

theorem addAll_comb (d : Option FlattenedRoute) (n : Nat) :
    addAll (.node d []) ((List.range n).map combRoute) = some (.node d (combTrie (List.range n))) := by
  have key : ∀ (js : List Nat) (ks : List Nat), (∀ i (h : i < js.length), js[i] = ks.length + i) →
      addAll (.node d (combTrie ks)) (js.map combRoute) = some (.node d (combTrie (ks ++ js))) := by
    intro js
    induction js with
    | nil => intro ks _; simp [addAll]
    | cons j js ih =>
      intro ks h
      have hj : j = ks.length := h 0 (by simp)
      rw [List.map_cons, addAll, combKeys_eq, hj, add_comb]
      simp only
      rw [← hj, ih]
      · simp
      · intro i hi
        have := h (i + 1) (by simpa using hi)
        simp only [List.getElem_cons_succ] at this
        rw [this]; simp; omega
  exact key (List.range n) [] (by simp)

/-- What is written for a route behind its text. -/
def combLast (k : Nat) : List Stmt :=
  writeMethods (combRoute k) ++ [.matchPath 1 [.bytes c!"/" [.addI 1], .wildNotFound]] ++ (writeMethods (combRoute k) ++ [.retNotFound])

/-- What is written behind `x`. -/
def combCode : Nat → List Nat → List Stmt
  | k, [] => [.ifThen (.iAddGtLen 3) [.retNotFound], .matchPath 3 [.bytes c!"yzw" [.addI 3], .wildNotFound]] ++ combLast k
  | k, k' :: ks => [.ifThen .iEqLen [.retNotFound], .matchPath 1 [.bytes c!"y" [.addI 1], .wildNotFound], .ifThen .iEqLen [.retNotFound],
      .matchPath 1 [.bytes c!"x" (.addI 1 :: combCode k' ks),
        .bytes c!"z" (.addI 1 :: .ifThen .iEqLen [.retNotFound] :: .matchPath 1 [.bytes c!"w" [.addI 1], .wildNotFound] :: combLast k),
        .wildNotFound]]

theorem gen_last (k f : Nat) : codegenTrie (f + 2) (.node none [(.separator, .node (some (combRoute k)) [])]) = .ok (combLast k) := rfl

theorem gen_tail (k f : Nat) : codegenTrie (f + 4) (combTail k) =
    .ok (.ifThen .iEqLen [.retNotFound] :: .matchPath 1 [.bytes c!"w" [.addI 1], .wildNotFound] :: combLast k) := rfl

theorem gen_root {d : Option FlattenedRoute} (hd : ownMethods d = []) {f k k' : Nat} {ks : List Nat} {b : List Stmt}
    (h : codegenTrie (f + 4) (.node none [(.static 'y', .node none (combTrie (k' :: ks)))]) = .ok b) :
    codegenTrie (f + 5) (.node d (combTrie (k :: k' :: ks))) = .ok [.ifThen .iEqLen [.retNotFound], .matchPath 1 [.bytes c!"x" (.addI 1 :: b),
        .bytes c!"z" (.addI 1 :: .ifThen .iEqLen [.retNotFound] :: .matchPath 1 [.bytes c!"w" [.addI 1], .wildNotFound] :: combLast k),
        .wildNotFound]] := by
  rw [codegenTrie]
  simp only [combTrie, Trie.children_node, Trie.data_node, hd, List.nil_append]
  simp only [genMulti, Trie.children_node, findDynamic, unambiguousPrefix, Charlike.isSep, List.any_cons, List.any_nil, Bool.or_self,
    staticOptions, List.filterMap_cons, List.filterMap_nil, ambiguousArms, h, gen_tail]
  rfl

theorem gen_comb : ∀ (ks : List Nat) (k f : Nat),
    codegenTrie (f + 2 * ks.length + 5) (.node none [(.static 'y', .node none (combTrie (k :: ks)))]) = .ok (combCode k ks)
  | [], k, f => rfl
  | k' :: ks, k, f => by
    have ih := gen_comb ks k' f
    have h := gen_root (d := none) rfl (f := f + 2 * ks.length + 1) (k := k) ih
    have e : f + 2 * (k' :: ks).length + 5 = (f + 2 * ks.length + 6) + 1 := by simp; omega
    rw [e, codegenTrie]
    simp only [Trie.children_node, Trie.data_node, genSingle]
    have hs : staticChain (f + 2 * ks.length + 6) ['y'] (.node none (combTrie (k :: k' :: ks))) = (['y'], .node none (combTrie (k :: k' :: ks))) := rfl
    rw [hs]
    simp only
    rw [show f + 2 * ks.length + 6 = f + 2 * ks.length + 1 + 5 by omega, h]
    rfl

theorem depth_comb : ∀ (ks : List Nat) (k : Nat), Trie.depthList (combTrie (k :: ks)) = 2 * ks.length + 3
  | [], k => rfl
  | k' :: ks, k => by
    have := depth_comb ks k'
    simp only [combTrie, Trie.depthList, Trie.depthPair, Trie.depth, combTail, this]
    simp
    omega

theorem comb_body (n : Nat) : matcherBody (comb (n + 2)) = .ok (combCode 0 ((List.range (n + 1)).map (· + 1)) |>.drop 2) := by
  have hr : List.range (n + 2) = 0 :: ((List.range (n + 1)).map (· + 1)) := by rw [List.range_succ_eq_map]
  have hr' : List.range (n + 1) = 0 :: ((List.range n).map (· + 1)) := by rw [List.range_succ_eq_map]
  have ht : toTrie (comb (n + 2)) = some (.node (some ⟨[], [], []⟩) (combTrie (List.range (n + 2)))) := by
    unfold toTrie comb
    rw [flattenRoutes, addAll, List.append_nil, flatten_comb]
    exact addAll_comb _ _
  unfold matcherBody
  rw [ht]
  simp only
  generalize hks : ((List.range n).map (· + 1)).map (· + 1) = ks
  have hlen : ks.length = n := by simp [← hks]
  have h0 : List.range (n + 2) = 0 :: 1 :: ks := by rw [hr, hr', ← hks]; rfl
  have h1 : (List.range (n + 1)).map (· + 1) = 1 :: ks := by rw [hr', ← hks]; rfl
  rw [h0, h1, Trie.depth, depth_comb]
  have := gen_root (d := some ⟨[], [], []⟩) rfl (f := 2 * ks.length + 1) (k := 0) (k' := 1) (ks := ks) (gen_comb ks 1 0 |> fun h => by simpa using h)
  rw [show 1 + (2 * (1 :: ks).length + 3) = 2 * ks.length + 1 + 5 by simp; omega, this]
  rfl

theorem lines_last (k : Nat) : blockLines (combLast k) = 21 := rfl

theorem lines_comb : ∀ (ks : List Nat) (k : Nat), blockLines (combCode k ks) = 51 * ks.length + 30
  | [], k => rfl
  | k' :: ks, k => by
    simp only [combCode, blockLines, Stmt.lines, armsLines, Arm.lines, lines_comb ks k', lines_last, List.length_cons]
    omega

theorem flat_last (k : Nat) : blockFlat (combLast k) := by
  simp [combLast, blockFlat, writeMethods, Stmt.flat, methodArms, combRoute, combAction, MethodArm.flat, armsFlat, Arm.flat, dynamics]

theorem flat_comb : ∀ (ks : List Nat) (k : Nat), blockFlat (combCode k ks)
  | [], k => blockFlat_append.2 ⟨by simp [blockFlat, Stmt.flat, armsFlat, Arm.flat], flat_last k⟩
  | k' :: ks, k => by
    simp [combCode, blockFlat, Stmt.flat, armsFlat, Arm.flat, flat_comb ks k', flat_last k]

theorem check_last (k : Nat) : checkBlock (combLast k) [] = some [] := rfl

theorem check_comb : ∀ (ks : List Nat) (k : Nat), checkBlock (combCode k ks) [] = some []
  | [], k => rfl
  | k' :: ks, k => by
    simp [combCode, checkBlock, Stmt.check, checkArms, Arm.check, check_comb ks k', check_last k, Scope.index, Scope.free, lookupVar]

theorem shape_last (k : Nat) : blockShapeOk (combLast k) = true := rfl

theorem shape_comb : ∀ (ks : List Nat) (k : Nat), blockShapeOk (combCode k ks) = true
  | [], k => rfl
  | k' :: ks, k => by
    simp [combCode, blockShapeOk, Stmt.shapeOk, armsShapeOk, Arm.shapeOk, shape_comb ks k', shape_last k]
    decide

theorem literals_comb : ∀ ks : List Nat,
    sumOver MethodArm.lineCount (nestedLiterals [] [] (ks.map fun k => .mk (.static (combText k)) (.mk [combAction k] [] []))) = 2 * ks.length
  | [] => rfl
  | k :: ks => by
    rw [List.map_cons, nestedLiterals, sumOver_append, literals_comb ks]
    simp [NestedRoutes.literals, Routes.ownLiterals, Routes.literalsBelow, nestedLiterals, sumOver, MethodArm.lineCount, combAction, PathSegment.capture]
    omega

theorem count_comb : ∀ ks : List Nat,
    nestedCounts (ks.map fun k => .mk (.static (combText k)) (.mk [combAction k] [] [])) = ks.length
  | [] => rfl
  | k :: ks => by
    rw [List.map_cons, nestedCounts, count_comb ks]
    simp [NestedRoutes.nestedCount, Routes.nestedCount, nestedCounts]
    omega

/-- C61: the bound is reached up to a constant, for any number of routes: 47 lines for every route, besides the lines of the literals. -/
theorem C61_tight (n : Nat) : ∃ body, matcherBody (comb (n + 2)) = .ok body ∧ compiles body = true ∧ (comb (n + 2)).nestedCount = n + 2 ∧
    lineCount (matcherText (comb (n + 2))).text + 30 = 47 * (n + 2) + sumOver MethodArm.lineCount ((comb (n + 2)).ownLiterals [] [])
      + 2 * sumOver MethodArm.lineCount ((comb (n + 2)).literalsBelow [] []) := by
  have hb := comb_body n
  have hks : (List.range (n + 1)).map (· + 1) = 1 :: ((List.range n).map (· + 1)).map (· + 1) := by rw [List.range_succ_eq_map]; rfl
  rw [hks] at hb
  generalize hg : ((List.range n).map (· + 1)).map (· + 1) = ks at hb
  have hlen : ks.length = n := by simp [← hg]
  have hsh := shape_comb (1 :: ks) 0
  have hch := check_comb (1 :: ks) 0
  have hfl := flat_comb (1 :: ks) 0
  have hln := lines_comb (1 :: ks) 0
  refine ⟨_, hb, ?_, ?_, ?_⟩
  · simp only [compiles, Bool.and_eq_true]
    constructor
    · simp only [combCode, blockShapeOk, Bool.and_eq_true] at hsh
      simp only [combCode, List.drop_succ_cons, List.drop_zero, blockShapeOk, Bool.and_eq_true]
      exact hsh.2.2
    · have : checkBlock (combCode 0 (1 :: ks)) [] = checkBlock ((combCode 0 (1 :: ks)).drop 2) [] := rfl
      rw [← this, hch]
      rfl
  · simp only [comb, Routes.nestedCount, count_comb, List.length_range]
  · have hfl' : blockFlat ((combCode 0 (1 :: ks)).drop 2) := hfl.2.2
    have hln' : blockLines ((combCode 0 (1 :: ks)).drop 2) + 9 = blockLines (combCode 0 (1 :: ks)) := by
      simp only [combCode, List.drop_succ_cons, List.drop_zero, blockLines, Stmt.lines, armsLines, Arm.lines]
      omega
    simp only [matcherText, hb, Out.write, block_lineCount 2 _ hfl']
    simp only [comb, Routes.ownLiterals, Routes.literalsBelow, List.map_nil, List.append_nil, literals_comb, List.length_range]
    have h0 : sumOver MethodArm.lineCount [] = 0 := rfl
    rw [h0]
    simp only [List.length_cons] at hln
    omega

theorem oneLine_comb : ∀ ks : List Nat,
    nestedOneLine (ks.map fun k => .mk (.static (combText k)) (.mk [combAction k] [] [])) = true
  | [] => rfl
  | k :: ks => by
    rw [List.map_cons, nestedOneLine, oneLine_comb ks]
    have h : ∀ k, oneLine (combText k) = true := by
      intro k
      induction k with
      | zero => rfl
      | succ k ih =>
        have : combText (k + 1) = c!"xy" ++ combText k := by simp [combText, List.replicate_succ]
        rw [this, oneLine, List.all_append, ← oneLine, ← oneLine, ih]
        rfl
    simp [NestedRoutes.oneLine, PathSegment.oneLine, Routes.oneLine, nestedOneLine, combAction, Resource.oneLine, h]
    simp [oneLine]

/-- C61: so no bound with a smaller factor holds. -/
theorem C61_factor {a b : Nat} (h : ∀ (r : Routes) (body : List Stmt), matcherBody r = .ok body → compiles body = true → r.oneLine = true →
      lineCount (matcherText r).text ≤ b + a * r.nestedCount + sumOver MethodArm.lineCount (r.ownLiterals [] [])
        + 2 * sumOver MethodArm.lineCount (r.literalsBelow [] [])) : 47 ≤ a := by
  obtain ⟨body, h1, h2, h3, h4⟩ := C61_tight (b + 30)
  have := h _ body h1 h2 (by simp [comb, Routes.oneLine, oneLine_comb])
  rw [h3] at this
  by_contra hlt
  have : a * (b + 30 + 2) ≤ 46 * (b + 30 + 2) := Nat.mul_le_mul_right _ (by omega)
  omega

end Demo

end Wayfinder
