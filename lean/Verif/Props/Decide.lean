import Verif.Props.Config
import Verif.Props.Found
import Verif.Props.Renaming
import Verif.Tests.Check
/-!
# The conditions on configurations can be decided

`C02_config`, `C09_config`, `C11_config`, `C12_config`, `C14_config` and `C15_config` say for which configurations a property
holds.  Here: each of the conditions can be checked by listing the routes of the configuration.
-/

namespace Wayfinder

/-! ## Equality of configurations -/

mutual
def sameB : Routes → Routes → Bool
  | .mk rs ns qs, .mk rs' ns' qs' => decide (rs = rs') && sameAllB ns ns' && decide (qs = qs')
def sameAllB : List NestedRoutes → List NestedRoutes → Bool
  | [], [] => true
  | c :: cs, c' :: cs' => sameChildB c c' && sameAllB cs cs'
  | _, _ => false
def sameChildB : NestedRoutes → NestedRoutes → Bool
  | .mk seg t, .mk seg' t' => decide (seg = seg') && sameB t t'
end

mutual
theorem sameB_iff : ∀ a b : Routes, sameB a b = true ↔ a = b
  | .mk rs ns qs, .mk rs' ns' qs' => by simp [sameB, sameAllB_iff ns ns', and_assoc]
theorem sameAllB_iff : ∀ a b : List NestedRoutes, sameAllB a b = true ↔ a = b
  | [], [] => by simp [sameAllB]
  | [], _ :: _ => by simp [sameAllB]
  | _ :: _, [] => by simp [sameAllB]
  | c :: cs, c' :: cs' => by simp [sameAllB, sameChildB_iff c c', sameAllB_iff cs cs']
theorem sameChildB_iff : ∀ a b : NestedRoutes, sameChildB a b = true ↔ a = b
  | .mk seg t, .mk seg' t' => by simp [sameChildB, sameB_iff t t']
end

instance : DecidableEq Routes := fun a b => decidable_of_iff _ (sameB_iff a b)

/-! ## Lists of routes -/

/-- The routes all steps of which are admitted, given the children among which the step chooses. -/
inductive Admitted (ok : List NestedRoutes → PathSegment → Bool) : Routes → List PathSegment → List Param → Routes → Prop where
  | here (r : Routes) : Admitted ok r [] [] r
  | child {r node : Routes} {seg : PathSegment} {sub : Routes} {segs : List PathSegment} {query : List Param} :
      NestedRoutes.mk seg sub ∈ r.routes → ok r.routes seg = true → Admitted ok sub segs query node →
      Admitted ok r (seg :: segs) (r.queryParameters ++ query) node

mutual
def walks (ok : List NestedRoutes → PathSegment → Bool) : Routes → List (List PathSegment × List Param × Routes)
  | .mk rs ns qs => ([], [], .mk rs ns qs) :: walksAll ok ns qs ns
def walksAll (ok : List NestedRoutes → PathSegment → Bool) (all : List NestedRoutes) (qs : List Param) :
    List NestedRoutes → List (List PathSegment × List Param × Routes)
  | [] => []
  | c :: cs => walksChild ok all qs c ++ walksAll ok all qs cs
def walksChild (ok : List NestedRoutes → PathSegment → Bool) (all : List NestedRoutes) (qs : List Param) :
    NestedRoutes → List (List PathSegment × List Param × Routes)
  | .mk seg t => if ok all seg then (walks ok t).map fun x => (seg :: x.1, qs ++ x.2.1, x.2.2) else []
end

theorem mem_walksAll {ok : List NestedRoutes → PathSegment → Bool} {all : List NestedRoutes} {qs : List Param}
    {x : List PathSegment × List Param × Routes} {ns : List NestedRoutes} :
    x ∈ walksAll ok all qs ns ↔ ∃ c ∈ ns, x ∈ walksChild ok all qs c := by
  induction ns with
  | nil => simp [walksAll]
  | cons c ns ih => simp [walksAll, ih]

theorem mem_walks {ok : List NestedRoutes → PathSegment → Bool} {r : Routes} {segs : List PathSegment} {above : List Param} {node : Routes} :
    (segs, above, node) ∈ walks ok r ↔ Admitted ok r segs above node := by
  constructor
  · intro h
    obtain ⟨rs, ns, qs⟩ := r
    rw [walks, List.mem_cons, mem_walksAll] at h
    rcases h with h | ⟨⟨seg, t⟩, hc, h⟩
    · cases h; exact .here _
    · rw [walksChild] at h
      split at h
      · rename_i hok
        obtain ⟨⟨a, b, c⟩, h1, h2⟩ := List.mem_map.1 h
        cases h2
        exact .child hc hok (mem_walks.1 h1)
      · cases h
  · intro h
    induction h with
    | here r => obtain ⟨rs, ns, qs⟩ := r; simp [walks]
    | @child r node seg sub segs query hn hok _ ih =>
      obtain ⟨rs, ns, qs⟩ := r
      rw [walks, List.mem_cons, mem_walksAll]
      refine .inr ⟨_, hn, ?_⟩
      rw [walksChild, if_pos (show ok ns seg = true from hok)]
      exact List.mem_map.2 ⟨_, ih, rfl⟩
termination_by sizeOf r
decreasing_by exact sizeOf_child (by assumption)

/-- The steps of `Open`. -/
def opens (all : List NestedRoutes) : PathSegment → Bool
  | .static s => decide (paramNames all = [] ∨ staticTexts all = [s])
  | .dynamic p => decide (captor all = some p.name)

/-- The steps of `Wide`. -/
def widens (all : List NestedRoutes) : PathSegment → Bool
  | .static s => decide (paramNames all = [] ∨ staticTexts all = [s])
  | .dynamic p => decide (captor all = some p.name ∧ (staticTexts all).length ≠ 1)

theorem hasRoute_iff {r node : Routes} {segs : List PathSegment} {above : List Param} :
    HasRoute r segs above node ↔ (segs, above, node) ∈ walks (fun _ _ => true) r := by
  rw [mem_walks]
  constructor
  · intro h
    induction h with
    | here => exact .here _
    | child hn _ ih => exact .child hn rfl ih
  · intro h
    induction h with
    | here => exact .here _
    | child hn _ _ ih => exact .child hn ih

theorem open_iff {r node : Routes} {segs : List PathSegment} {above : List Param} :
    Open r segs above node ↔ (segs, above, node) ∈ walks opens r := by
  rw [mem_walks]
  constructor
  · intro h
    induction h with
    | here => exact .here _
    | static hn h1 _ ih => exact .child hn (by simpa [opens] using h1) ih
    | dynamic hn h1 _ ih => exact .child hn (by simpa [opens] using h1) ih
  · intro h
    induction h with
    | here => exact .here _
    | @child r node seg sub segs query hn hok _ ih =>
      cases seg with
      | static s => exact .static hn (by simpa [opens] using hok) ih
      | dynamic p => exact .dynamic hn (by simpa [opens] using hok) ih

theorem wide_iff {r node : Routes} {segs : List PathSegment} {above : List Param} :
    Wide r segs above node ↔ (segs, above, node) ∈ walks widens r := by
  rw [mem_walks]
  constructor
  · intro h
    induction h with
    | here => exact .here _
    | static hn h1 _ ih => exact .child hn (by simpa [widens] using h1) ih
    | dynamic hn h1 h2 _ ih => exact .child hn (by simpa [widens] using ⟨h1, h2⟩) ih
  · intro h
    induction h with
    | here => exact .here _
    | @child r node seg sub segs query hn hok _ ih =>
      cases seg with
      | static s => exact .static hn (by simpa [widens] using hok) ih
      | dynamic p =>
        have : captor r.routes = some p.name ∧ (staticTexts r.routes).length ≠ 1 := by simpa [widens] using hok
        exact .dynamic hn this.1 this.2 ih

instance (r : Routes) (segs : List PathSegment) (above : List Param) (node : Routes) : Decidable (HasRoute r segs above node) :=
  decidable_of_iff _ hasRoute_iff.symm

instance (r : Routes) (segs : List PathSegment) (above : List Param) (node : Routes) : Decidable (Open r segs above node) :=
  decidable_of_iff _ open_iff.symm

instance (r : Routes) (segs : List PathSegment) (above : List Param) (node : Routes) : Decidable (Wide r segs above node) :=
  decidable_of_iff _ wide_iff.symm

instance (r : Routes) (segs : List PathSegment) (query : List Param) (res : Resource) : Decidable (Declares r segs query res) :=
  decidable_of_iff _ Rust.mem_declared

theorem forall_triples {A B C : Type} {l : List (A × B × C)} {P : A → B → C → Prop} :
    (∀ x ∈ l, P x.1 x.2.1 x.2.2) ↔ ∀ a b c, (a, b, c) ∈ l → P a b c :=
  ⟨fun h a b c hm => h _ hm, fun h x hm => h _ _ _ hm⟩

/-- A condition on the blocks that requests can reach. -/
instance openDecidable {r : Routes} {P : List PathSegment → List Param → Routes → Prop} [∀ a b c, Decidable (P a b c)] :
    Decidable (∀ segs above node, Open r segs above node → P segs above node) :=
  decidable_of_iff (∀ x ∈ walks opens r, P x.1 x.2.1 x.2.2) (by simp only [open_iff]; exact forall_triples)

/-- A condition on all blocks. -/
instance routeDecidable {r : Routes} {P : List PathSegment → List Param → Routes → Prop} [∀ a b c, Decidable (P a b c)] :
    Decidable (∀ segs above node, HasRoute r segs above node → P segs above node) :=
  decidable_of_iff (∀ x ∈ walks (fun _ _ => true) r, P x.1 x.2.1 x.2.2) (by simp only [hasRoute_iff]; exact forall_triples)

/-- A condition on all resources. -/
instance declaredDecidable {r : Routes} {P : List PathSegment → List Param → Resource → Prop} [∀ a b c, Decidable (P a b c)] :
    Decidable (∀ segs query res, Declares r segs query res → P segs query res) :=
  decidable_of_iff (∀ x ∈ Rust.declared r, P x.1 x.2.1 x.2.2) (by simp only [← Rust.mem_declared]; exact forall_triples)

instance (node : Routes) : Decidable (Cliff node) :=
  decidable_of_iff (node.resources = [] ∧ paramNames node.routes ≠ [] ∧ (staticTexts node.routes).map List.length = [1]) (by
    refine and_congr Iff.rfl (and_congr Iff.rfl ⟨fun h => ?_, fun ⟨c, h⟩ => by rw [h]; rfl⟩)
    obtain ⟨s, hs⟩ := List.length_eq_one_iff.1 (by simpa using congrArg List.length h : (staticTexts node.routes).length = 1)
    rw [hs] at h
    obtain ⟨c, rfl⟩ := List.length_eq_one_iff.1 (by simpa using h : s.length = 1)
    exact ⟨c, hs⟩)

theorem first_iff {rs : List Resource} {res : Resource} : (∃ before after, rs = before ++ res :: after ∧ ∀ o ∈ before, o.method ≠ res.method) ↔
    rs.find? (fun o => decide (o.method = res.method)) = some res := by
  rw [List.find?_eq_some_iff_append]
  constructor
  · rintro ⟨before, after, h1, h2⟩
    exact ⟨by simp, before, after, h1, fun o ho => by simpa using h2 o ho⟩
  · rintro ⟨-, before, after, h1, h2⟩
    exact ⟨before, after, h1, fun o ho => by simpa using h2 o ho⟩

theorem exists_walk {l : List (List PathSegment × List Param × Routes)} {segs : List PathSegment} {res : Resource} :
    (∃ x ∈ l, x.1 = segs ∧ x.2.2.resources.find? (fun o => decide (o.method = res.method)) = some res) ↔
      ∃ above node before after, (segs, above, node) ∈ l ∧ node.resources = before ++ res :: after ∧
        ∀ o ∈ before, o.method ≠ res.method := by
  constructor
  · rintro ⟨⟨a, b, c⟩, hx, rfl, hf⟩
    obtain ⟨before, after, h1, h2⟩ := first_iff.2 hf
    exact ⟨b, c, before, after, hx, h1, h2⟩
  · rintro ⟨b, c, before, after, hx, h1, h2⟩
    exact ⟨_, hx, rfl, first_iff.1 ⟨before, after, h1, h2⟩⟩

instance {r : Routes} {segs : List PathSegment} {res : Resource} : Decidable (∃ above node before after, Open r segs above node ∧
    node.resources = before ++ res :: after ∧ ∀ o ∈ before, o.method ≠ res.method) :=
  decidable_of_iff (∃ x ∈ walks opens r, x.1 = segs ∧ x.2.2.resources.find? (fun o => decide (o.method = res.method)) = some res) (by
    simp only [open_iff]; exact exists_walk)

instance {r : Routes} {segs : List PathSegment} {res : Resource} : Decidable (∃ above node before after, Wide r segs above node ∧
    node.resources = before ++ res :: after ∧ ∀ o ∈ before, o.method ≠ res.method) :=
  decidable_of_iff (∃ x ∈ walks widens r, x.1 = segs ∧ x.2.2.resources.find? (fun o => decide (o.method = res.method)) = some res) (by
    simp only [wide_iff]; exact exists_walk)

instance (f : Str → Str) (r : Routes) : Decidable (KeepsCaptor f r) := by unfold KeepsCaptor; infer_instance

end Wayfinder
