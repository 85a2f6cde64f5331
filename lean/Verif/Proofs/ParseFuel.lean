import Verif.Proofs.Parse
/-!
# The parser without fuel

`pNestedRoutes` takes a bound for the nesting depth.  More fuel than characters makes no difference, so
the parser satisfies the recursive equations of the code.
-/

namespace Wayfinder

variable {α β : Type}

/-- Two parsers agree on inputs of at most `n` characters. -/
def Agree (n : Nat) (p q : Parser α) : Prop := ∀ i, i.length ≤ n → p i = q i

theorem Agree.refl (n : Nat) (p : Parser α) : Agree n p p := fun _ _ => rfl

theorem Agree.bind {n : Nat} {p q : Parser α} {f g : α → Parser β} (hp : Tidy p) (h : Agree n p q)
    (hf : ∀ a, Agree n (f a) (g a)) : Agree n (pBind p f) (pBind q g) := by
  intro i hi
  unfold pBind
  rw [← h i hi]
  cases he : p i with
  | ok rest a => exact hf a rest (Nat.le_trans (hp.length he) hi)
  | error c => rfl
  | failure c => rfl

theorem Agree.many0 {n : Nat} {p q : Parser α} (hp : Tidy p) (h : Agree n p q) :
    Agree n (pMany0 p) (pMany0 q) := by
  have key : ∀ f i acc, i.length ≤ n → many0Loop p f i acc = many0Loop q f i acc := by
    intro f
    induction f with
    | zero => intros; rfl
    | succ f ih =>
      intro i acc hi
      unfold many0Loop
      rw [← h i hi]
      cases he : p i with
      | error c => rfl
      | failure c => rfl
      | ok rest a => simp only [ih rest _ (Nat.le_trans (hp.length he) hi)]
  exact fun i hi => key _ _ _ hi

theorem Agree.many1 {n : Nat} {p q : Parser α} (hp : Tidy p) (h : Agree n p q) :
    Agree n (pMany1 p) (pMany1 q) := by
  intro i hi
  rw [many1_eq, many1_eq, ← h i hi]
  cases he : p i with
  | error c => rfl
  | failure c => rfl
  | ok rest a => simp only [h.many0 hp rest (Nat.le_trans (hp.length he) hi)]

theorem Agree.returnError {n : Nat} {p q : Parser α} (h : Agree n p q) (k : Kind) :
    Agree n (pReturnError k p) (pReturnError k q) := by
  intro i hi
  unfold pReturnError
  rw [h i hi]

theorem Agree.alt {n : Nat} {b : Bool} {p q : Parser α} {ps qs : List (Parser α)} (h : Agree n p q)
    (hs : Agree n (pAlt b ps) (pAlt b qs)) : Agree n (pAlt b (p :: ps)) (pAlt b (q :: qs)) := by
  intro i hi
  unfold pAlt
  rw [h i hi, hs i hi]

theorem Agree.routesWith (cfg : ParseCfg) {n : Nat} {p q : Parser NestedRoutes} (hp : Tidy p)
    (h : Agree n p q) (level : Nat) : Agree n (pRoutesWith cfg p level) (pRoutesWith cfg q level) := by
  refine Agree.bind ((tidy_queryParameter cfg _).terminated tidy_lineEnding.many1).many0 (.refl _ _) fun _ => ?_
  refine Agree.bind (tidy_resourcesAndRoutes cfg hp level) ?_ fun _ => .refl _ _
  refine Agree.returnError (Agree.alt ?_ (Agree.alt ?_ (.refl _ _))) _
  · refine Agree.bind (tidy_resource cfg level).many1 (.refl _ _) fun _ => Agree.bind ?_ (Agree.alt ?_ (.refl _ _))
      fun _ => .refl _ _
    · refine tidy_alt _ fun x hx => ?_
      simp only [List.mem_cons, List.not_mem_nil, or_false] at hx
      rcases hx with rfl | rfl
      · exact tidy_lineEnding.many0.preceded hp.many1
      · exact tidy_pure _
    · exact Agree.bind tidy_lineEnding.many0 (.refl _ _) fun _ => h.many1 hp
  · exact Agree.bind hp.many1 (h.many1 hp) fun _ => .refl _ _

theorem lineEnding_strict {i rest : Str} {a : Unit} (h : pLineEnding i = .ok rest a) :
    rest.length < i.length := by
  unfold pLineEnding at h
  split at h
  · cases h; simp
  · cases h; simp; omega
  · cases h

theorem many1_strict {p : Parser α} (hp : Tidy p)
    (hs : ∀ i rest a, p i = .ok rest a → rest.length < i.length) {i rest : Str} {a : List α}
    (h : pMany1 p i = .ok rest a) : rest.length < i.length := by
  rw [many1_eq] at h
  cases he : p i with
  | error c => rw [he] at h; cases h
  | failure c => rw [he] at h; cases h
  | ok r a' =>
    rw [he] at h
    simp only at h
    cases hm : pMany0 p r with
    | error c => rw [hm] at h; cases h
    | failure c => rw [hm] at h; cases h
    | ok r' l =>
      rw [hm] at h
      simp only [Res.prepend, Res.ok.injEq] at h
      have := hp.many0.length hm
      have := hs i r a' he
      rw [← h.1]; omega

/-- More fuel than characters makes no difference. -/
theorem nestedRoutes_fuel (cfg : ParseCfg) : ∀ f g level i, i.length < f → i.length < g →
    pNestedRoutes cfg f level i = pNestedRoutes cfg g level i
  | 0, _, _, _, hf, _ => absurd hf (Nat.not_lt_zero _)
  | _ + 1, 0, _, _, _, hg => absurd hg (Nat.not_lt_zero _)
  | f + 1, g + 1, level, i, hf, hg => by
    unfold pNestedRoutes pBind
    cases h1 : pPathSegment cfg level i with
    | error c => rfl
    | failure c => rfl
    | ok r1 seg =>
      simp only
      cases h2 : pMany1 pLineEnding r1 with
      | error c => rfl
      | failure c => rfl
      | ok r2 _ =>
        simp only
        have := (tidy_pathSegment cfg level).length h1
        have := many1_strict tidy_lineEnding (fun _ _ _ => lineEnding_strict) h2
        have hag : Agree r2.length (pNestedRoutes cfg f (level + 1)) (pNestedRoutes cfg g (level + 1)) :=
          fun j hj => nestedRoutes_fuel cfg f g (level + 1) j (by omega) (by omega)
        rw [((hag.routesWith cfg (tidy_nestedRoutes cfg f _) (level + 1)).returnError _) r2 (Nat.le_refl _)]

/-- `nested_routes`, with fuel supplied. -/
def nestedRoutes (cfg : ParseCfg) (level : Nat) : Parser NestedRoutes := fun i =>
  pNestedRoutes cfg (i.length + 1) level i

theorem tidy_nested (cfg : ParseCfg) (level : Nat) : Tidy (nestedRoutes cfg level) := fun i =>
  tidy_nestedRoutes cfg _ level i

/-- `nested_routes` as in the code. -/
theorem nestedRoutes_eq (cfg : ParseCfg) (level : Nat) : nestedRoutes cfg level =
    pBind (pPathSegment cfg level) fun segment =>
    pBind (pMany1 pLineEnding) fun _ =>
    pBind (pReturnError (.custom c!"In routes starting here")
      (pRoutesWith cfg (nestedRoutes cfg (level + 1)) (level + 1))) fun routes =>
      pPure (.mk segment routes) := by
  funext i
  have hag : Agree i.length (pNestedRoutes cfg (i.length + 1) (level + 1)) (nestedRoutes cfg (level + 1)) :=
    fun j hj => nestedRoutes_fuel cfg _ _ (level + 1) j (by omega) (by omega)
  have : nestedRoutes cfg level i = pNestedRoutes cfg (i.length + 1 + 1) level i :=
    nestedRoutes_fuel cfg _ _ level i (by omega) (by omega)
  rw [this, pNestedRoutes]
  refine Agree.bind (tidy_pathSegment cfg level) (.refl i.length _) (fun seg => ?_) i (Nat.le_refl _)
  refine Agree.bind tidy_lineEnding.many1 (.refl _ _) fun _ => ?_
  refine Agree.bind ((tidy_routesWith cfg (tidy_nestedRoutes cfg _ _) _).returnError _) ?_ fun _ => .refl _ _
  exact (hag.routesWith cfg (tidy_nestedRoutes cfg _ _) (level + 1)).returnError _

/-- `routes` as in the code. -/
theorem routes_eq (cfg : ParseCfg) (level : Nat) :
    pRoutes cfg level = pRoutesWith cfg (nestedRoutes cfg level) level := by
  funext i
  have hag : Agree i.length (pNestedRoutes cfg (i.length + 1) level) (nestedRoutes cfg level) :=
    fun j hj => nestedRoutes_fuel cfg _ _ level j (by omega) (by omega)
  exact hag.routesWith cfg (tidy_nestedRoutes cfg _ _) level i (Nat.le_refl _)

end Wayfinder
