import Verif.Spec.Types
import Verif.Proofs.Read
import Verif.Proofs.Naming
/-!
# Other types for the path parameters
-/

namespace Wayfinder

/-! ## Tries -/

namespace Trie
variable {K V : Type}

mutual
/-- Apply a function to all elements. -/
def mapData (g : V → V) : Trie K V → Trie K V
  | node d cs => node (d.map g) (mapList g cs)
/-- The same for children. -/
def mapList (g : V → V) : List (K × Trie K V) → List (K × Trie K V)
  | [] => []
  | kt :: rest => mapPair g kt :: mapList g rest
/-- The same for one child. -/
def mapPair (g : V → V) : K × Trie K V → K × Trie K V
  | (k, t) => (k, t.mapData g)
end

theorem mapList_eq (g : V → V) : ∀ cs : List (K × Trie K V), mapList g cs = cs.map fun kt => (kt.1, kt.2.mapData g)
  | [] => rfl
  | (k, t) :: cs => by simp [mapList, mapPair, mapList_eq g cs]

@[simp] theorem data_mapData (g : V → V) (t : Trie K V) : (t.mapData g).data = t.data.map g := by
  cases t; rfl

@[simp] theorem children_mapData (g : V → V) (t : Trie K V) :
    (t.mapData g).children = t.children.map fun kt => (kt.1, kt.2.mapData g) := by
  cases t; simp [mapData, mapList_eq]

mutual
theorem depth_mapData (g : V → V) : ∀ t : Trie K V, (t.mapData g).depth = t.depth
  | node d cs => by simp [mapData, depth, depthList_map g cs]
theorem depthList_map (g : V → V) : ∀ cs : List (K × Trie K V), depthList (mapList g cs) = depthList cs
  | [] => rfl
  | kt :: cs => by simp [mapList, depthList, depthPair_map g kt, depthList_map g cs]
theorem depthPair_map (g : V → V) : ∀ kt : K × Trie K V, depthPair (mapPair g kt) = depthPair kt
  | (k, t) => by simp [mapPair, depthPair, depth_mapData g t]
end

theorem map_insert {α β : Type} (f : α → β) : ∀ (l : List α) (i : Nat) (a : α), (l.insertIdx i a).map f = (l.map f).insertIdx i (f a)
  | _, 0, _ => by simp
  | [], i + 1, _ => by simp
  | x :: l, i + 1, a => by simp [map_insert f l i a]

theorem map_erase {α β : Type} (f : α → β) : ∀ (l : List α) (i : Nat), (l.eraseIdx i).map f = (l.map f).eraseIdx i
  | [], _ => by simp
  | _ :: _, 0 => by simp
  | x :: l, i + 1 => by simp [map_erase f l i]

theorem search_eq {α : Type} (cmp : K → K → Ordering) (cs : List (K × α)) (c : K) {cmpAt : Nat → Ordering} {n : Nat}
    (h : ∀ i, cmpAt i = ((cs[i]?).map fun p => cmp p.1 c).getD .gt) (hn : cs.length = n) : binarySearchByKey cmp cs c =
    if n = 0 then .inr 0 else (match cmpAt (binarySearchLoop cmpAt n 0 n) with
      | .eq => .inl (binarySearchLoop cmpAt n 0 n)
      | .lt => .inr (binarySearchLoop cmpAt n 0 n + 1)
      | .gt => .inr (binarySearchLoop cmpAt n 0 n)) := by
  have h' : cmpAt = fun i => match cs[i]? with
      | some p => cmp p.1 c
      | none => .gt := by
    funext i
    rw [h]
    cases cs[i]? <;> rfl
  subst hn
  by_cases h0 : cs.length = 0
  · simp [binarySearchByKey, h0]
  · simp only [binarySearchByKey]; rw [if_neg h0, if_neg h0, h']; rfl

theorem binarySearch_map (cmp : K → K → Ordering) (g : V → V) (cs : List (K × Trie K V)) (c : K) :
    binarySearchByKey cmp (cs.map fun kt => (kt.1, kt.2.mapData g)) c = binarySearchByKey cmp cs c := by
  obtain ⟨cmpAt, h⟩ : ∃ cmpAt : Nat → Ordering, ∀ i, cmpAt i = ((cs[i]?).map fun p => cmp p.1 c).getD .gt := ⟨_, fun _ => rfl⟩
  rw [search_eq cmp cs c h rfl]
  refine search_eq cmp _ c (fun i => ?_) (List.length_map _)
  rw [h, List.getElem?_map, Option.map_map]
  rfl

theorem add_mapData (cmp : K → K → Ordering) (g : V → V) : ∀ (path : List K) (t t' : Trie K V) (v : V),
    t.add cmp path v = .ok t' → (t.mapData g).add cmp path (g v) = .ok (t'.mapData g)
  | [], node d cs, t', v, h => by
    cases d with
    | some _ => simp [add] at h
    | none =>
      simp only [add, Except.ok.injEq] at h
      subst h
      simp [mapData, add]
  | c :: path, node d cs, t', v, h => by
    simp only [add] at h
    simp only [mapData, mapList_eq, add, binarySearch_map]
    cases hb : binarySearchByKey cmp cs c with
    | inr i =>
      simp only [hb] at h ⊢
      cases ha : add cmp new path v with
      | error e => simp [ha] at h
      | ok tr =>
        have := add_mapData cmp g path new tr v ha
        simp only [ha, Except.ok.injEq] at h
        subst h
        have hn : (new : Trie K V).mapData g = new := rfl
        rw [hn] at this
        simp only [this, mapData, mapList_eq, map_insert]
    | inl i =>
      simp only [hb] at h ⊢
      rw [List.getElem?_map]
      cases hc : cs[i]? with
      | none => simp [hc] at h
      | some kt =>
        obtain ⟨k, tr⟩ := kt
        simp only [hc] at h
        cases ha : add cmp tr path v with
        | error e => simp [ha] at h
        | ok tr' =>
          have := add_mapData cmp g path tr tr' v ha
          simp only [ha, Except.ok.injEq] at h
          subst h
          simp only [Option.map_some, this, mapData, mapList_eq, map_insert, map_erase]

end Trie

theorem addAll_map {g : FlattenedRoute → FlattenedRoute} (hg : ∀ v, charlikes (g v).path = charlikes v.path) :
    ∀ (rs : List FlattenedRoute) (t t' : RouteTrie), addAll t rs = some t' →
      addAll (t.mapData g) (rs.map g) = some (t'.mapData g)
  | [], t, t', h => by
    simp only [addAll, Option.some.injEq] at h
    subst h
    rfl
  | v :: rs, t, t', h => by
    simp only [addAll] at h
    cases ha : t.add Charlike.cmp (charlikes v.path) v with
    | error e => simp [ha] at h
    | ok t1 =>
      simp only [ha] at h
      simp only [List.map_cons, addAll, hg, Trie.add_mapData _ g _ _ _ _ ha]
      exact addAll_map hg rs t1 t' h

/-! ## Segments -/

variable {τ : Typing}

theorem retypeSegs_append : ∀ (a pre b : List PathSegment),
    retypeSegs τ pre (a ++ b) = retypeSegs τ pre a ++ retypeSegs τ (pre ++ a) b
  | [], pre, b => by simp [retypeSegs]
  | s :: a, pre, b => by simp [retypeSegs, retypeSegs_append a (pre ++ [s]) b]

theorem charlikes_retype : ∀ (segs pre : List PathSegment), charlikes (retypeSegs τ pre segs) = charlikes segs
  | [], _ => rfl
  | s :: segs, pre => by
    have h := charlikes_retype segs (pre ++ [s])
    simp only [charlikes] at h
    cases s <;> simp [retypeSegs, charlikes, PathSegment.retype, PathSegment.charlikes, h]

theorem dynamics_names : ∀ (segs pre : List PathSegment),
    (dynamics (retypeSegs τ pre segs)).map Param.name = (dynamics segs).map Param.name
  | [], _ => rfl
  | s :: segs, pre => by
    have h := dynamics_names segs (pre ++ [s])
    simp only [dynamics] at h
    cases s <;> simp [retypeSegs, dynamics, PathSegment.retype, h]

theorem retypeNesteds_eq (pre : List PathSegment) : ∀ ns, retypeNesteds τ pre ns = ns.map (retypeNested τ pre)
  | [] => rfl
  | n :: ns => by simp [retypeNesteds, retypeNesteds_eq pre ns]

@[simp] theorem pathSegment_retype (pre : List PathSegment) (n : NestedRoutes) :
    (retypeNested τ pre n).pathSegment = n.pathSegment.retype τ pre := by cases n; rfl

@[simp] theorem routes_retype (pre : List PathSegment) (r : Routes) :
    (retypeRoutes τ pre r).routes = r.routes.map (retypeNested τ pre) := by
  cases r; simp [retypeRoutes, retypeNesteds_eq]

@[simp] theorem resources_retype (pre : List PathSegment) (r : Routes) :
    (retypeRoutes τ pre r).resources = r.resources := by cases r; rfl

@[simp] theorem queryParameters_retype (pre : List PathSegment) (r : Routes) :
    (retypeRoutes τ pre r).queryParameters = r.queryParameters := by cases r; rfl

theorem staticTexts_retype (pre : List PathSegment) (ns : List NestedRoutes) :
    staticTexts (ns.map (retypeNested τ pre)) = staticTexts ns := by
  simp only [staticTexts, List.filterMap_map]
  congr 1
  funext n
  cases n with
  | mk seg r => cases seg <;> rfl

theorem paramNames_retype (pre : List PathSegment) (ns : List NestedRoutes) :
    paramNames (ns.map (retypeNested τ pre)) = paramNames ns := by
  simp only [paramNames, List.filterMap_map]
  congr 1
  funext n
  cases n with
  | mk seg r => cases seg <;> rfl

theorem captor_retype (pre : List PathSegment) (ns : List NestedRoutes) :
    captor (ns.map (retypeNested τ pre)) = captor ns := by
  simp only [captor, paramNames_retype]

/-! ## Generation -/

/-- An element of the trie with the chosen types. -/
def FlattenedRoute.retype (τ : Typing) (v : FlattenedRoute) : FlattenedRoute :=
  { v with path := retypeSegs τ [] v.path }

mutual
theorem flattenRoutes_retype : ∀ (r : Routes) (path : List PathSegment) (q : List Param),
    flattenRoutes (retypeRoutes τ path r) (retypeSegs τ [] path) q = (flattenRoutes r path q).map (FlattenedRoute.retype τ)
  | .mk rs ns qs, path, q => by
    simp only [retypeRoutes, flattenRoutes, List.map_cons, flattenNesteds_retype ns path]
    rfl
theorem flattenNesteds_retype : ∀ (ns : List NestedRoutes) (path : List PathSegment) (q : List Param),
    flattenNesteds (retypeNesteds τ path ns) (retypeSegs τ [] path) q =
      (flattenNesteds ns path q).map (FlattenedRoute.retype τ)
  | [], _, _ => rfl
  | n :: ns, path, q => by
    simp only [retypeNesteds, flattenNesteds, List.map_append, flattenNested_retype n path, flattenNesteds_retype ns path]
theorem flattenNested_retype : ∀ (n : NestedRoutes) (path : List PathSegment) (q : List Param),
    flattenNested (retypeNested τ path n) (retypeSegs τ [] path) q =
      (flattenNested n path q).map (FlattenedRoute.retype τ)
  | .mk seg r, path, q => by
    have h := flattenRoutes_retype r (path ++ [seg]) q
    rw [retypeSegs_append] at h
    simpa only [retypeNested, flattenNested, retypeSegs, List.nil_append] using h
end

theorem toTrie_retype {r : Routes} {t : RouteTrie} (h : toTrie r = some t) :
    toTrie (r.retype τ) = some (t.mapData (FlattenedRoute.retype τ)) := by
  unfold toTrie at h ⊢
  have h1 := flattenRoutes_retype (τ := τ) r [] []
  simp only [retypeSegs] at h1
  rw [Routes.retype, h1]
  exact addAll_map (fun v => charlikes_retype _ _) _ _ _ h

open Rust in
/-- Both fail, or both emit the same lines. -/
def SameErased (a b : Except GenFail (List Stmt)) : Prop :=
  (∃ e, a = .error e ∧ b = .error e) ∨ ∃ x y, a = .ok x ∧ b = .ok y ∧ eraseBlock x = eraseBlock y

namespace Rust

theorem eraseBlock_append : ∀ a b : List Stmt, eraseBlock (a ++ b) = eraseBlock a ++ eraseBlock b
  | [], b => rfl
  | s :: a, b => by simp [eraseBlock, eraseBlock_append a b]

theorem eraseArms_append : ∀ a b : List Arm, eraseArms (a ++ b) = eraseArms a ++ eraseArms b
  | [], b => rfl
  | s :: a, b => by simp [eraseArms, eraseArms_append a b]

theorem erase_methods (v : FlattenedRoute) : (methodArms (v.retype τ)).map eraseVerb = (methodArms v).map eraseVerb := by
  simp only [methodArms, FlattenedRoute.retype, List.map_map]
  refine List.map_congr_left fun res _ => ?_
  have h := dynamics_names (τ := τ) v.path []
  simp only [Function.comp_def, eraseVerb, valueOf]
  have h' : (dynamics (retypeSegs τ [] v.path)).map (fun p => (p.name, false)) = (dynamics v.path).map fun p => (p.name, false) := by
    have := congrArg (List.map fun x => (x, false)) h
    simpa only [List.map_map, Function.comp_def] using this
  rw [h']

theorem erase_own (d : Option FlattenedRoute) :
    eraseBlock (ownMethods (d.map (FlattenedRoute.retype τ))) = eraseBlock (ownMethods d) := by
  cases d with
  | none => rfl
  | some v =>
    have h := erase_methods (τ := τ) v
    simp only [Option.map_some, ownMethods]
    have : (v.retype τ).resources = v.resources := rfl
    rw [this]
    split
    · simp only [writeMethods, eraseBlock, eraseStmt, h]
    · rfl

theorem erase_sepHead (d : Option FlattenedRoute) :
    eraseBlock (separatorHead (d.map (FlattenedRoute.retype τ))) = eraseBlock (separatorHead d) := by
  cases d with
  | none => rfl
  | some v =>
    have h := erase_methods (τ := τ) v
    simp only [Option.map_some, separatorHead]
    have : (v.retype τ).resources = v.resources := rfl
    rw [this]
    split
    · simp only [writeMethods, eraseBlock, eraseStmt, h]
    · rfl

end Rust

open Rust

/-- The trie with the chosen types. -/
abbrev retypeTrie (τ : Typing) (t : RouteTrie) : RouteTrie := t.mapData (FlattenedRoute.retype τ)

theorem staticChain_retype : ∀ (fuel : Nat) (acc : Str) (t : RouteTrie),
    staticChain fuel acc (retypeTrie τ t) = ((staticChain fuel acc t).1, retypeTrie τ (staticChain fuel acc t).2)
  | 0, acc, t => rfl
  | fuel + 1, acc, .node d cs => by
    match cs with
    | [] => simp [staticChain, Trie.mapData, Trie.mapList]
    | [(.static ch, t')] =>
      simp only [staticChain, Trie.mapData, Trie.mapList, Trie.mapPair, Trie.children_node]
      exact staticChain_retype fuel _ t'
    | [(.dynamic _, t')] => simp [staticChain, Trie.mapData, Trie.mapList, Trie.mapPair]
    | [(.separator, t')] => simp [staticChain, Trie.mapData, Trie.mapList, Trie.mapPair]
    | a :: b :: cs => simp [staticChain, Trie.mapData, Trie.mapList]

theorem staticOptions_retype : ∀ cs : List (Charlike × RouteTrie),
    staticOptions (cs.map fun kt => (kt.1, retypeTrie τ kt.2)) = (staticOptions cs).map fun kt => (kt.1, retypeTrie τ kt.2)
  | [] => rfl
  | (.static ch, t) :: cs => by
    have := staticOptions_retype cs
    simp only [staticOptions] at this
    simp [staticOptions, this]
  | (.dynamic x, t) :: cs => by
    have := staticOptions_retype cs
    simp only [staticOptions] at this
    simp [staticOptions, this]
  | (.separator, t) :: cs => by
    have := staticOptions_retype cs
    simp only [staticOptions] at this
    simp [staticOptions, this]

theorem unambiguousPrefix_retype : ∀ (fuel : Nat) (s : Str) (l : Nat) (t : RouteTrie),
    unambiguousPrefix fuel s l (retypeTrie τ t) = ((unambiguousPrefix fuel s l t).1, (unambiguousPrefix fuel s l t).2.1,
      retypeTrie τ (unambiguousPrefix fuel s l t).2.2)
  | 0, s, l, t => rfl
  | fuel + 1, s, l, t => by
    have hany : ((retypeTrie τ t).children.any fun c => c.1.isSep) = t.children.any fun c => c.1.isSep := by
      simp [List.any_map, Function.comp_def]
    have hopt : staticOptions (retypeTrie τ t).children = (staticOptions t.children).map fun kt => (kt.1, retypeTrie τ kt.2) := by
      rw [Trie.children_mapData]; exact staticOptions_retype _
    simp only [unambiguousPrefix, hany, hopt]
    split
    · rfl
    · match staticOptions t.children with
      | [] => rfl
      | [(ch, t')] => exact unambiguousPrefix_retype fuel _ _ t'
      | a :: b :: cs => rfl

theorem findDynamic_retype : ∀ cs : List (Charlike × RouteTrie),
    findDynamic (cs.map fun kt => (kt.1, retypeTrie τ kt.2)) = (findDynamic cs).map fun kt => (kt.1, retypeTrie τ kt.2)
  | [] => rfl
  | (.static ch, t) :: cs => by simpa [findDynamic] using findDynamic_retype cs
  | (.dynamic x, t) :: cs => rfl
  | (.separator, t) :: cs => by simpa [findDynamic] using findDynamic_retype cs

theorem followed_retype (t : RouteTrie) : followedBySeparator (retypeTrie τ t) = followedBySeparator t := by
  obtain ⟨d, cs⟩ := t
  match cs with
  | [] => rfl
  | [(.static _, _)] => rfl
  | [(.dynamic _, _)] => rfl
  | [(.separator, _)] => rfl
  | a :: b :: cs => simp [followedBySeparator, Trie.mapData, Trie.mapList]

section
variable {gen gen' : RouteTrie → Except GenFail (List Stmt)} (h : ∀ t, SameErased (gen (retypeTrie τ t)) (gen' t))
include h

theorem writeDynamic_retype (name : Str) (t : RouteTrie) :
    SameErased (writeDynamic gen name (retypeTrie τ t)) (writeDynamic gen' name t) := by
  unfold writeDynamic
  rw [followed_retype]
  split
  · rcases h t with ⟨e, h1, h2⟩ | ⟨x, y, h1, h2, h3⟩
    · rw [h1, h2]; exact .inl ⟨_, rfl, rfl⟩
    · rw [h1, h2]
      exact .inr ⟨_, _, rfl, rfl, by simp [h3, dynamicHead, eraseBlock, eraseStmt]⟩
  · exact .inl ⟨_, rfl, rfl⟩

theorem ambiguousArms_retype : ∀ cs : List (Charlike × RouteTrie),
    (∃ e, ambiguousArms gen (cs.map fun kt => (kt.1, retypeTrie τ kt.2)) = .error e ∧ ambiguousArms gen' cs = .error e) ∨
      ∃ x y, ambiguousArms gen (cs.map fun kt => (kt.1, retypeTrie τ kt.2)) = .ok x ∧ ambiguousArms gen' cs = .ok y ∧
        eraseArms x = eraseArms y
  | [] => .inr ⟨_, _, rfl, rfl, rfl⟩
  | (.static c, t) :: cs => by
    simp only [List.map_cons, ambiguousArms]
    rcases h t with ⟨e, h1, h2⟩ | ⟨x, y, h1, h2, h3⟩
    · rw [h1, h2]; exact .inl ⟨_, rfl, rfl⟩
    · rw [h1, h2]
      rcases ambiguousArms_retype cs with ⟨e, g1, g2⟩ | ⟨x', y', g1, g2, g3⟩
      · simp only [g1, g2]; exact .inl ⟨_, rfl, rfl⟩
      · simp only [g1, g2]
        exact .inr ⟨_, _, rfl, rfl, by simp [eraseArms, eraseArm, eraseBlock, h3, g3]⟩
  | (.dynamic p, t) :: cs => by
    simp only [List.map_cons, ambiguousArms]
    rcases writeDynamic_retype h p t with ⟨e, h1, h2⟩ | ⟨x, y, h1, h2, h3⟩
    · rw [h1, h2]; exact .inl ⟨_, rfl, rfl⟩
    · rw [h1, h2]; exact .inr ⟨_, _, rfl, rfl, rfl⟩
  | (.separator, t) :: cs => by
    simp only [List.map_cons, ambiguousArms]
    rcases ambiguousArms_retype cs with ⟨e, g1, g2⟩ | ⟨x', y', g1, g2, g3⟩
    · simp only [g1, g2]; exact .inl ⟨_, rfl, rfl⟩
    · simp only [g1, g2]
      exact .inr ⟨_, _, rfl, rfl, by simp [eraseArms, eraseArm, g3]⟩

theorem genSingle_retype (fuel : Nat) (seg : Charlike) (child : RouteTrie) :
    SameErased (genSingle gen fuel seg (retypeTrie τ child)) (genSingle gen' fuel seg child) := by
  cases seg with
  | separator =>
    simp only [genSingle]
    rcases h child with ⟨e, h1, h2⟩ | ⟨x, y, h1, h2, h3⟩
    · rw [h1, h2]; exact .inl ⟨_, rfl, rfl⟩
    · rw [h1, h2]
      refine .inr ⟨_, _, rfl, rfl, ?_⟩
      simp only [eraseBlock_append, h3, Trie.data_mapData, erase_sepHead]
  | static ch =>
    simp only [genSingle, staticChain_retype]
    rcases h (staticChain fuel [ch] child).2 with ⟨e, h1, h2⟩ | ⟨x, y, h1, h2, h3⟩
    · rw [h1, h2]; exact .inl ⟨_, rfl, rfl⟩
    · rw [h1, h2]
      exact .inr ⟨_, _, rfl, rfl, by simp [eraseBlock, h3]⟩
  | dynamic name =>
    simp only [genSingle]
    rcases writeDynamic_retype h name child with ⟨e, h1, h2⟩ | ⟨x, y, h1, h2, h3⟩
    · rw [h1, h2]; exact .inl ⟨_, rfl, rfl⟩
    · rw [h1, h2]
      exact .inr ⟨_, _, rfl, rfl, by simp [eraseBlock, h3]⟩

theorem genMulti_retype (fuel : Nat) (t : RouteTrie) :
    SameErased (genMulti gen fuel (retypeTrie τ t)) (genMulti gen' fuel t) := by
  have hf : findDynamic (retypeTrie τ t).children = (findDynamic t.children).map fun kt => (kt.1, retypeTrie τ kt.2) := by
    rw [Trie.children_mapData]; exact findDynamic_retype _
  simp only [genMulti, hf, unambiguousPrefix_retype, Option.isSome_map]
  split
  · cases hd : findDynamic t.children with
    | none => exact .inl ⟨_, rfl, rfl⟩
    | some nt =>
      obtain ⟨name, dynChild⟩ := nt
      simp only [Option.map_some]
      rcases h (unambiguousPrefix fuel [] 0 t).2.2 with ⟨e, h1, h2⟩ | ⟨x, y, h1, h2, h3⟩
      · rw [h1, h2]; exact .inl ⟨_, rfl, rfl⟩
      · rw [h1, h2]
        rcases writeDynamic_retype h name dynChild with ⟨e, g1, g2⟩ | ⟨x', y', g1, g2, g3⟩
        · simp only [g1, g2]; exact .inl ⟨_, rfl, rfl⟩
        · simp only [g1, g2]
          exact .inr ⟨_, _, rfl, rfl, by simp [eraseBlock, eraseStmt, eraseArms, eraseArm, h3, g3]⟩
  · rw [Trie.children_mapData]
    rcases ambiguousArms_retype h t.children with ⟨e, g1, g2⟩ | ⟨x', y', g1, g2, g3⟩
    · rw [g1, g2]; exact .inl ⟨_, rfl, rfl⟩
    · rw [g1, g2]
      exact .inr ⟨_, _, rfl, rfl, by simp [eraseBlock_append, eraseBlock, eraseStmt, eraseArms_append, g3]⟩

end

theorem codegenTrie_retype : ∀ (fuel : Nat) (t : RouteTrie), SameErased (codegenTrie fuel (retypeTrie τ t)) (codegenTrie fuel t)
  | 0, t => .inl ⟨_, rfl, rfl⟩
  | fuel + 1, .node d cs => by
    have ih := codegenTrie_retype fuel
    match cs with
    | [] =>
      refine .inr ⟨_, _, rfl, rfl, ?_⟩
      simp only [eraseBlock_append, Trie.data_mapData, erase_own]
    | [(seg, child)] =>
      simp only [codegenTrie, Trie.mapData, Trie.mapList, Trie.mapPair, Trie.children_node, Trie.data_node]
      rcases genSingle_retype ih fuel seg child with ⟨e, h1, h2⟩ | ⟨x, y, h1, h2, h3⟩
      · rw [h1, h2]; exact .inl ⟨_, rfl, rfl⟩
      · rw [h1, h2]
        exact .inr ⟨_, _, rfl, rfl, by simp only [eraseBlock_append, erase_own, h3]⟩
    | a :: b :: cs =>
      have := genMulti_retype ih fuel (.node d (a :: b :: cs))
      simp only [codegenTrie, Trie.mapData, Trie.mapList, Trie.children_node, Trie.data_node] at this ⊢
      rcases this with ⟨e, h1, h2⟩ | ⟨x, y, h1, h2, h3⟩
      · rw [h1, h2]; exact .inl ⟨_, rfl, rfl⟩
      · rw [h1, h2]
        exact .inr ⟨_, _, rfl, rfl, by simp only [eraseBlock_append, erase_own, h3]⟩

/-- With other types of path parameters the same lines are emitted. -/
theorem matcherBody_retype {r : Routes} {body : List Stmt} (h : matcherBody r = .ok body) :
    ∃ body', matcherBody (r.retype τ) = .ok body' ∧ eraseBlock body' = eraseBlock body := by
  unfold matcherBody at h
  cases ht : toTrie r with
  | none => simp [ht] at h
  | some t =>
    simp only [ht] at h
    unfold matcherBody
    rw [toTrie_retype ht]
    simp only [Trie.depth_mapData]
    rcases codegenTrie_retype (τ := τ) t.depth t with ⟨e, h1, h2⟩ | ⟨x, y, h1, h2, h3⟩
    · rw [h] at h2; cases h2
    · rw [h] at h2; cases h2
      exact ⟨x, h1, h3⟩

/-! ## Routes -/

theorem LiveRoute.retype {r node : Routes} {segs : List PathSegment} {q : List Param} (h : LiveRoute r segs q node) :
    ∀ pre, LiveRoute (retypeRoutes τ pre r) (retypeSegs τ pre segs) q (retypeRoutes τ (pre ++ segs) node) := by
  induction h with
  | here r => intro pre; simpa [retypeSegs] using LiveRoute.here (retypeRoutes τ pre r)
  | @static r node s sub segs query hn _ ih =>
    intro pre
    have h1 := ih (pre ++ [.static s])
    rw [List.append_assoc] at h1
    have h2 := LiveRoute.static (r := retypeRoutes τ pre r) (s := s) (by
      rw [routes_retype]; exact List.mem_map.2 ⟨_, hn, rfl⟩) h1
    rwa [queryParameters_retype] at h2
  | @dynamic r node p sub segs query hn hc _ ih =>
    intro pre
    have h1 := ih (pre ++ [.dynamic p])
    rw [List.append_assoc] at h1
    have h2 := LiveRoute.dynamic (r := retypeRoutes τ pre r) (p := ⟨p.name, τ pre p⟩) (by
      rw [routes_retype]; exact List.mem_map.2 ⟨_, hn, rfl⟩) (by rw [routes_retype, captor_retype]; exact hc) h1
    rwa [queryParameters_retype] at h2

theorem liveRoute_retype {r' node' : Routes} {segs' : List PathSegment} {q : List Param} (h : LiveRoute r' segs' q node') :
    ∀ pre r, r' = retypeRoutes τ pre r → ∃ segs node, LiveRoute r segs q node ∧ segs' = retypeSegs τ pre segs ∧
      node' = retypeRoutes τ (pre ++ segs) node := by
  induction h with
  | here r' => rintro pre r rfl; exact ⟨[], r, .here _, rfl, by simp⟩
  | @static r' node s sub segs query hn _ ih =>
    rintro pre r rfl
    rw [routes_retype] at hn
    obtain ⟨⟨seg, sub'⟩, hn', he⟩ := List.mem_map.1 hn
    simp only [retypeNested, NestedRoutes.mk.injEq] at he
    obtain ⟨h1, rfl⟩ := he
    cases seg with
    | dynamic p => cases h1
    | static s' =>
      simp only [PathSegment.retype, PathSegment.static.injEq] at h1
      subst h1
      obtain ⟨segs1, node1, g1, rfl, rfl⟩ := ih (pre ++ [.static s']) sub' rfl
      exact ⟨.static s' :: segs1, node1, by rw [queryParameters_retype]; exact .static hn' g1, rfl, by simp⟩
  | @dynamic r' node p sub segs query hn hc _ ih =>
    rintro pre r rfl
    rw [routes_retype] at hn hc
    obtain ⟨⟨seg, sub'⟩, hn', he⟩ := List.mem_map.1 hn
    simp only [retypeNested, NestedRoutes.mk.injEq] at he
    obtain ⟨h1, rfl⟩ := he
    cases seg with
    | static s => cases h1
    | dynamic p' =>
      simp only [PathSegment.retype, PathSegment.dynamic.injEq] at h1
      subst h1
      rw [captor_retype] at hc
      obtain ⟨segs1, node1, g1, rfl, rfl⟩ := ih (pre ++ [.dynamic p']) sub' rfl
      exact ⟨.dynamic p' :: segs1, node1, by rw [queryParameters_retype]; exact .dynamic hn' hc g1, rfl, by simp⟩

theorem localOk_retype {pre : List PathSegment} {ns : List NestedRoutes} :
    LocalOk (ns.map (retypeNested τ pre)) ↔ LocalOk ns := by
  constructor
  · rintro ⟨h1, h2, h3, h4⟩
    rw [staticTexts_retype] at h1 h2 h3 h4
    rw [paramNames_retype] at h3 h4
    exact ⟨h1, h2, h3, h4⟩
  · rintro ⟨h1, h2, h3, h4⟩
    refine ⟨?_, ?_, ?_, ?_⟩ <;> simpa only [staticTexts_retype, paramNames_retype]

theorem shapely_retype {r : Routes} : Shapely (r.retype τ) ↔ Shapely r := by
  constructor
  · intro h segs q node hl
    have := h _ _ _ (hl.retype (τ := τ) [])
    rwa [routes_retype, localOk_retype] at this
  · intro h segs q node hl
    obtain ⟨segs', node', h1, rfl, rfl⟩ := liveRoute_retype hl [] r rfl
    rw [routes_retype, localOk_retype]
    exact h _ _ _ h1

theorem routeParams_retype (segs pre : List PathSegment) :
    (routeParams (retypeSegs τ pre segs)).map Param.name = (routeParams segs).map Param.name := by
  rw [← dynamics_eq_routeParams, ← dynamics_eq_routeParams]
  exact dynamics_names segs pre

theorem fieldsDistinct_retype {r : Routes} : FieldsDistinct (r.retype τ) ↔ FieldsDistinct r := by
  constructor
  · intro h segs q node hl res hres
    have := h _ _ _ (hl.retype (τ := τ) []) res (by simpa using hres)
    simpa only [List.map_append, routeParams_retype, queryParameters_retype] using this
  · intro h segs q node hl res hres
    obtain ⟨segs', node', h1, rfl, rfl⟩ := liveRoute_retype hl [] r rfl
    have := h _ _ _ h1 res (by simpa using hres)
    simpa only [List.map_append, routeParams_retype, queryParameters_retype] using this

/-- A live route that ends in a parameter. -/
theorem LiveRoute.retype_param {r node : Routes} {segs : List PathSegment} {p : Param} {q : List Param}
    (h : LiveRoute r (segs ++ [.dynamic p]) q node) : LiveRoute (r.retype τ) (retypeSegs τ [] segs ++ [.dynamic ⟨p.name, τ segs p⟩]) q
      (retypeRoutes τ (segs ++ [.dynamic p]) node) := by
  have := h.retype (τ := τ) []
  rw [retypeSegs_append] at this
  exact this

theorem split_retype : ∀ {a segs' rest : List PathSegment} {pre : List PathSegment} {p' : Param},
    retypeSegs τ pre a = segs' ++ .dynamic p' :: rest →
    ∃ s p t, a = s ++ .dynamic p :: t ∧ segs' = retypeSegs τ pre s ∧ p' = ⟨p.name, τ (pre ++ s) p⟩ ∧
      rest = retypeSegs τ (pre ++ s ++ [.dynamic p]) t
  | [], segs', rest, pre, p', h => by simp [retypeSegs] at h
  | seg :: a, [], rest, pre, p', h => by
    simp only [retypeSegs, List.nil_append, List.cons.injEq] at h
    cases seg with
    | static s => cases h.1
    | dynamic p =>
      simp only [PathSegment.retype, PathSegment.dynamic.injEq] at h
      exact ⟨[], p, a, rfl, rfl, by simpa using h.1.symm, by simpa using h.2.symm⟩
  | seg :: a, s' :: segs', rest, pre, p', h => by
    simp only [retypeSegs, List.cons_append, List.cons.injEq] at h
    obtain ⟨s, p, t, rfl, rfl, rfl, rfl⟩ := split_retype h.2
    exact ⟨seg :: s, p, t, rfl, by simp [retypeSegs, h.1], by simp, by simp⟩

theorem liveRoute_retype_param {r node' : Routes} {segs' : List PathSegment} {p' : Param} {q : List Param}
    (h : LiveRoute (r.retype τ) (segs' ++ [.dynamic p']) q node') :
    ∃ segs p node, LiveRoute r (segs ++ [.dynamic p]) q node ∧ segs' = retypeSegs τ [] segs ∧ p' = ⟨p.name, τ segs p⟩ ∧
      node' = retypeRoutes τ (segs ++ [.dynamic p]) node := by
  obtain ⟨a, node, h1, h2, rfl⟩ := liveRoute_retype h [] r rfl
  obtain ⟨s, p, t, rfl, rfl, h3, h4⟩ := split_retype h2.symm
  have : t = [] := by
    cases t with
    | nil => rfl
    | cons x t => simp [retypeSegs] at h4
  subst this
  exact ⟨s, p, node, h1, rfl, by simpa using h3, rfl⟩

theorem paramsUsed_retype {r : Routes} : ParamsUsed (r.retype τ) ↔ ParamsUsed r := by
  constructor
  · intro h segs p q node hl
    obtain ⟨segs', q', node', h1, h2⟩ := h _ _ _ _ (hl.retype_param (τ := τ))
    obtain ⟨segs'', node'', h3, rfl, rfl⟩ := liveRoute_retype h1 _ node rfl
    exact ⟨_, _, _, h3, by simpa using h2⟩
  · intro h segs p q node hl
    obtain ⟨segs', p', node', h1, rfl, rfl, rfl⟩ := liveRoute_retype_param hl
    obtain ⟨segs'', q'', node'', h2, h3⟩ := h _ _ _ _ h1
    exact ⟨_, _, _, h2.retype _, by simpa using h3⟩

theorem hygienic_retype {r : Routes} : Hygienic (r.retype τ) ↔ Hygienic r := by
  constructor
  · intro h segs p q node hl
    obtain ⟨h1, h2⟩ := h _ _ _ _ (hl.retype_param (τ := τ))
    refine ⟨h1, fun hs segs' q' node' hl' => ?_⟩
    have := h2 hs _ _ _ (hl'.retype (τ := τ) _)
    rwa [routes_retype, paramNames_retype] at this
  · intro h segs p q node hl
    obtain ⟨segs', p', node', h1, rfl, rfl, rfl⟩ := liveRoute_retype_param hl
    obtain ⟨h2, h3⟩ := h _ _ _ _ h1
    refine ⟨h2, fun hs segs'' q'' node'' hl' => ?_⟩
    obtain ⟨segs3, node3, h4, rfl, rfl⟩ := liveRoute_retype hl' _ node' rfl
    rw [routes_retype, paramNames_retype]
    exact h3 hs _ _ _ h4

theorem PlainRoute.retype {r node : Routes} {segs : List PathSegment} (h : PlainRoute r segs node) :
    ∀ pre, PlainRoute (retypeRoutes τ pre r) segs (retypeRoutes τ (pre ++ segs) node) := by
  induction h with
  | here r => intro pre; simpa using PlainRoute.here (retypeRoutes τ pre r)
  | @static r node s sub segs hp hn _ ih =>
    intro pre
    have h1 := ih (pre ++ [.static s])
    rw [List.append_assoc] at h1
    exact .static (by rw [routes_retype, paramNames_retype]; exact hp) (by
      rw [routes_retype]; exact List.mem_map.2 ⟨_, hn, rfl⟩) h1

theorem plainRoute_retype {r' node' : Routes} {segs : List PathSegment} (h : PlainRoute r' segs node') :
    ∀ pre r, r' = retypeRoutes τ pre r → ∃ node, PlainRoute r segs node ∧ node' = retypeRoutes τ (pre ++ segs) node := by
  induction h with
  | here r' => rintro pre r rfl; exact ⟨r, .here _, by simp⟩
  | @static r' node s sub segs hp hn _ ih =>
    rintro pre r rfl
    rw [routes_retype] at hn hp
    obtain ⟨⟨seg, sub'⟩, hn', he⟩ := List.mem_map.1 hn
    simp only [retypeNested, NestedRoutes.mk.injEq] at he
    obtain ⟨h1, rfl⟩ := he
    cases seg with
    | dynamic p => cases h1
    | static s' =>
      simp only [PathSegment.retype, PathSegment.static.injEq] at h1
      subst h1
      rw [paramNames_retype] at hp
      obtain ⟨node1, g1, rfl⟩ := ih (pre ++ [.static s']) sub' rfl
      exact ⟨node1, .static hp hn' g1, by simp⟩

/-- Behind a block without parameters nothing is declared. -/
theorem LiveRoute.plain {r node : Routes} {segs : List PathSegment} {q : List Param} (h : LiveRoute r segs q node) :
    (∀ segs' q' node', LiveRoute r segs' q' node' → paramNames node'.routes = []) → PlainRoute r segs node := by
  induction h with
  | here r => intro _; exact .here _
  | @static r node s sub segs query hn _ ih =>
    intro hp
    exact .static (hp _ _ _ (.here _)) hn (ih fun segs' q' node' hl => hp _ _ _ (.static hn hl))
  | @dynamic r node p sub segs query hn hc _ ih =>
    intro hp
    have : p.name ∈ paramNames r.routes := List.mem_filterMap.2 ⟨_, hn, rfl⟩
    rw [hp _ _ _ (.here _)] at this
    cases this

/-- The types of parameters matter for `len` and `start` only. -/
theorem namesOk_retype {r : Routes} (hh : Hygienic r) : NamesOk (r.retype τ) ↔ NamesOk r := by
  constructor
  · intro h
    refine ⟨fun segs p q node hl => h.own _ ⟨p.name, τ segs p⟩ _ _ (hl.retype_param (τ := τ)),
      fun segs p q node hl e => absurd e (hh _ _ _ _ hl).1, ?_, ?_, ?_⟩
    · intro segs p segs' q node hl hne e
      have h1 := hl.retype (τ := τ) []
      rw [retypeSegs_append] at h1
      have := h.text _ ⟨p.name, _⟩ _ _ _ h1 (by simpa using hne) e
      have h2 := routeParams_retype (τ := τ) segs' ([] ++ segs ++ [.dynamic p])
      rw [this] at h2
      simpa using h2.symm
    · intro segs p q node hl e
      obtain ⟨segs', node', h1, h2⟩ := h.startUsed _ _ _ _ (hl.retype_param (τ := τ)) e
      obtain ⟨node1, g1, rfl⟩ := plainRoute_retype h1 _ node rfl
      exact ⟨_, _, g1, by simpa using h2⟩
    · intro segs p q node hl e segs' q' node' hl' _ hnp
      exact absurd (hl'.plain ((hh _ _ _ _ hl).2 e)) hnp
  · intro h
    refine ⟨fun segs' p' q node' hl => ?_, fun segs p q node hl e => ?_, ?_, ?_, ?_⟩
    · obtain ⟨segs, p, node, h1, rfl, rfl, rfl⟩ := liveRoute_retype_param hl
      exact h.own _ p _ _ h1
    · exact absurd e ((hygienic_retype (τ := τ)).2 hh _ _ _ _ hl).1
    · intro segs' p' rest' q node' hl hne e
      obtain ⟨a, node, h1, h2, rfl⟩ := liveRoute_retype hl [] r rfl
      obtain ⟨s, p, t, rfl, rfl, rfl, rfl⟩ := split_retype h2.symm
      have := h.text _ _ _ _ _ h1 (by simpa using hne) e
      have h3 := routeParams_retype (τ := τ) t ([] ++ s ++ [.dynamic p])
      rw [this] at h3
      simpa using h3
    · intro segs' p' q node' hl e
      obtain ⟨segs, p, node, h1, rfl, rfl, rfl⟩ := liveRoute_retype_param hl
      obtain ⟨segs2, node2, h2, h3⟩ := h.startUsed _ _ _ _ h1 e
      exact ⟨_, _, h2.retype _, by simpa using h3⟩
    · intro segs p q node hl e segs' q' node' hl' _ hnp
      exact absurd (hl'.plain (((hygienic_retype (τ := τ)).2 hh _ _ _ _ hl).2 e)) hnp

theorem emitted_retype {r : Routes} {segs' : List PathSegment} {query : List Param} {res : Resource}
    (h : Emitted (r.retype τ) segs' query res) : ∃ segs, Emitted r segs query res ∧ segs' = retypeSegs τ [] segs := by
  obtain ⟨node, above, hl, hres, rfl⟩ := h
  obtain ⟨segs, node', h1, rfl, rfl⟩ := liveRoute_retype hl [] r rfl
  exact ⟨segs, ⟨node', above, h1, by simpa using hres, by simp⟩, rfl⟩

theorem HasRoute.retype_inv {r' node' : Routes} {segs' : List PathSegment} {q : List Param} (h : HasRoute r' segs' q node') :
    ∀ pre r, r' = retypeRoutes τ pre r → ∃ segs node, HasRoute r segs q node ∧ segs' = retypeSegs τ pre segs ∧
      node' = retypeRoutes τ (pre ++ segs) node := by
  induction h with
  | here r' => rintro pre r rfl; exact ⟨[], r, .here _, rfl, by simp⟩
  | @child r' node seg' sub segs query hn _ ih =>
    rintro pre r rfl
    rw [routes_retype] at hn
    obtain ⟨⟨seg, sub'⟩, hn', he⟩ := List.mem_map.1 hn
    simp only [retypeNested, NestedRoutes.mk.injEq] at he
    obtain ⟨rfl, rfl⟩ := he
    obtain ⟨segs1, node1, g1, rfl, rfl⟩ := ih (pre ++ [seg]) sub' rfl
    exact ⟨seg :: segs1, node1, by rw [queryParameters_retype]; exact .child hn' g1, rfl, by simp⟩

theorem static_mem_retype {s : Str} : ∀ {segs pre : List PathSegment}, .static s ∈ retypeSegs τ pre segs → .static s ∈ segs
  | [], _, h => by cases h
  | seg :: segs, pre, h => by
    simp only [retypeSegs, List.mem_cons] at h
    rcases h with h | h
    · cases seg with
      | static s' => simp only [PathSegment.retype, PathSegment.static.injEq] at h; subst h; simp
      | dynamic p => cases h
    · exact List.mem_cons_of_mem _ (static_mem_retype h)

theorem plainTexts_retype {r : Routes} (h : PlainTexts r) : PlainTexts (r.retype τ) := by
  intro segs q node hr s hs
  obtain ⟨segs', node', h1, rfl, rfl⟩ := hr.retype_inv [] r rfl
  exact h _ _ _ h1 s (static_mem_retype hs)

end Wayfinder
