import Verif.Proofs.Refine
import Verif.Spec.Instance
import Verif.Spec.Shape
/-!
# All outcomes of the reference router
-/

namespace Wayfinder

variable {W : World} {m : Bytes}

@[simp] theorem spell_nil : spell [] = [] := rfl
@[simp] theorem spell_cons (p : Bytes) (ps : List Bytes) : spell (p :: ps) = p ++ slash :: spell ps := by
  simp [spell]

theorem spell_append (a b : List Bytes) : spell (a ++ b) = spell a ++ spell b := by
  simp [spell]

theorem Spells.nil : Spells [] [] := .inl rfl

theorem Spells.single (p : Bytes) : Spells [p] p := .inr (by simp)

theorem Spells.cons {p : Bytes} {ps : List Bytes} {bs : Bytes} (h : Spells ps bs) :
    Spells (p :: ps) (p ++ slash :: bs) := by
  rcases h with h | h
  · exact .inl (by simp [h])
  · exact .inr (by simp [h])

theorem GoesOn.cons {p part : Bytes} {ps : List Bytes} {bs : Bytes} (h : GoesOn ps part bs) :
    GoesOn (p :: ps) part (p ++ slash :: bs) := by
  obtain ⟨h1, rest, rfl, h2⟩ := h
  exact ⟨h1, rest, by simp, h2⟩

/-- The block answers for a path that ends there. -/
structure Answered (W : World) (r : Routes) (q : List Param) (caps : Caps W) (bs : Bytes)
    (o : Bytes → Outcome W) : Prop where
  ex : ∃ segs above node caps' parts, LiveRoute r segs above node ∧ node.resources ≠ [] ∧
    Fits W segs caps' parts ∧ Spells parts bs ∧
    ∀ m, o m = answer node.resources (q ++ above ++ node.queryParameters) (caps ++ caps') m

/-- A parameter does not parse. -/
structure ParamFails (W : World) (r : Routes) (bs : Bytes) (o : Bytes → Outcome W) : Prop where
  ex : ∃ segs p above node caps' parts part text e, LiveRoute r (segs ++ [.dynamic p]) above node ∧
    Fits W segs caps' parts ∧ GoesOn parts part bs ∧ fromUtf8 part = some text ∧
    W.parse p.typ text = .error e ∧ ∀ m, o m = .err p.name e

/-- A parameter's text is not UTF-8. -/
structure BadText (W : World) (r : Routes) (bs : Bytes) : Prop where
  ex : ∃ segs p above node caps' parts part, LiveRoute r (segs ++ [.dynamic p]) above node ∧
    Fits W segs caps' parts ∧ GoesOn parts part bs ∧ fromUtf8 part = none

/-- The path ends behind the `/` of a block without resources that has a parameter child and a
single static child, of one character. -/
structure Stuck (W : World) (r : Routes) (bs : Bytes) : Prop where
  ex : ∃ segs above node caps' parts c, LiveRoute r segs above node ∧ Fits W segs caps' parts ∧
    bs = spell parts ∧ node.resources = [] ∧ paramNames node.routes ≠ [] ∧
    staticTexts node.routes = [[c]]

/-- Every outcome is one of these. -/
def Classified (W : World) (r : Routes) (q : List Param) (caps : Caps W) (bs : Bytes)
    (o : Bytes → Outcome W) : Prop :=
  Answered W r q caps bs o ∨ (∀ m, o m = .notFound) ∨ ParamFails W r bs o ∨
    ((∀ m, o m = .panic) ∧ (BadText W r bs ∨ Stuck W r bs))

theorem LiveRoute.hasRoute {r node : Routes} {segs : List PathSegment} {query : List Param}
    (h : LiveRoute r segs query node) : HasRoute r segs query node := by
  induction h with
  | here => exact .here _
  | static hn _ ih => exact .child hn ih
  | dynamic hn _ _ ih => exact .child hn ih

theorem live_static {rs : List Resource} {ns : List NestedRoutes} {qs : List Param}
    {n : NestedRoutes} (hn : n ∈ ns) {s : Str} (hseg : n.pathSegment = .static s)
    {segs : List PathSegment} {above : List Param} {node : Routes}
    (h : LiveRoute n.routes segs above node) :
    LiveRoute (.mk rs ns qs) (n.pathSegment :: segs) (qs ++ above) node := by
  rw [hseg]
  refine LiveRoute.static (r := .mk rs ns qs) (sub := n.routes) ?_ h
  cases n; cases hseg; exact hn

theorem live_dynamic {rs : List Resource} {ns : List NestedRoutes} {qs : List Param}
    {n : NestedRoutes} (hn : n ∈ ns) {p : Param} (hseg : n.pathSegment = .dynamic p)
    (hcap : captor ns = some p.name)
    {segs : List PathSegment} {above : List Param} {node : Routes}
    (h : LiveRoute n.routes segs above node) :
    LiveRoute (.mk rs ns qs) (n.pathSegment :: segs) (qs ++ above) node := by
  rw [hseg]
  refine LiveRoute.dynamic (r := .mk rs ns qs) (sub := n.routes) ?_ hcap h
  cases n; cases hseg; exact hn

/-- Lift a classification from the child entered through the segment `part`. -/
theorem Classified.lift {rs : List Resource} {ns : List NestedRoutes} {qs : List Param}
    {n : NestedRoutes} {q : List Param} {caps caps0 : Caps W} {part rest : Bytes}
    {o : Bytes → Outcome W}
    (hr : ∀ {segs above node}, LiveRoute n.routes segs above node →
      LiveRoute (.mk rs ns qs) (n.pathSegment :: segs) (qs ++ above) node)
    (hfit : ∀ {segs caps' parts}, Fits W segs caps' parts →
      Fits W (n.pathSegment :: segs) (caps0 ++ caps') (part :: parts))
    (h : Classified W n.routes (q ++ qs) (caps ++ caps0) rest o) :
    Classified W (.mk rs ns qs) q caps (part ++ slash :: rest) o := by
  rcases h with ⟨segs, above, node, caps', parts, h1, h2, h3, h4, h5⟩ | h | h | ⟨h, h'⟩
  · left
    exact ⟨_, _, node, _, _, hr h1, h2, hfit h3, h4.cons, fun m => by rw [h5]; simp⟩
  · right; left; exact h
  · obtain ⟨segs, p, above, node, caps', parts, part', text, e, h1, h2, h3, h4, h5, h6⟩ := h
    right; right; left
    exact ⟨n.pathSegment :: segs, p, _, node, _, part :: parts, part', text, e, hr h1, hfit h2, h3.cons,
      h4, h5, h6⟩
  · right; right; right
    refine ⟨h, ?_⟩
    rcases h' with h' | h'
    · obtain ⟨segs, p, above, node, caps', parts, part', h1, h2, h3, h4⟩ := h'
      left
      exact ⟨n.pathSegment :: segs, p, _, node, _, part :: parts, part', hr h1, hfit h2, h3.cons, h4⟩
    · obtain ⟨segs, above, node, caps', parts, c, h1, h2, h3, h4⟩ := h'
      right
      exact ⟨_, _, node, _, _, c, hr h1, hfit h2, by simp [h3], h4⟩

theorem classified_atEnd {rs : List Resource} {ns : List NestedRoutes} {qs : List Param}
    {n : NestedRoutes} {q : List Param} {caps caps0 : Caps W} {part : Bytes}
    (hr : ∀ {segs above node}, LiveRoute n.routes segs above node →
      LiveRoute (.mk rs ns qs) (n.pathSegment :: segs) (qs ++ above) node)
    (hfit : Fits W [n.pathSegment] caps0 [part]) :
    Classified W (.mk rs ns qs) q caps part (fun m => atEnd m n.routes (q ++ qs) (caps ++ caps0)) := by
  by_cases hrs : n.routes.resources = []
  · right; left; simp [atEnd, hrs]
  · left
    exact ⟨[n.pathSegment], qs ++ [], n.routes, caps0, [part], hr (.here _), hrs, hfit, .single _,
      fun m => by simp [atEnd, hrs]⟩

/-- What capturing with a parameter child leads to. -/
def capture (W : World) (m : Bytes) (p : Param) (r : Routes) (q : List Param) (caps : Caps W)
    (bs : Bytes) : Outcome W :=
  match fromUtf8 (bs.takeWhile (· ≠ slash)) with
  | none => .panic
  | some text =>
    match W.parse p.typ text with
    | .error e => .err p.name e
    | .ok v => enter W m r q (caps ++ [(p, v)]) (bs.dropWhile (· ≠ slash))

theorem routeParam1_capture {n : NestedRoutes} {p : Param} (h : n.pathSegment = .dynamic p)
    (q : List Param) (caps : Caps W) (bs : Bytes) :
    routeParam1 W m p.name n q caps bs = some (capture W m p n.routes q caps bs) := by
  obtain ⟨seg, r⟩ := n
  simp only [NestedRoutes.pathSegment_mk] at h
  subst h
  simp only [routeParam1, if_true, capture]
  cases fromUtf8 (bs.takeWhile (· ≠ slash)) with
  | none => rfl
  | some text =>
    simp only
    cases W.parse p.typ text with
    | error e => rfl
    | ok v =>
      simp only
      cases hd : bs.dropWhile (· ≠ slash) with
      | nil => rfl
      | cons b rest => simp only [enter, dropWhile_slash hd, if_true]; rfl

theorem routeParam_some {W : World} {x : Str} :
    ∀ {ns : List NestedRoutes}, (x ∉ paramNames ns ∧
        ∀ m q (caps : Caps W) bs, routeParam W m x ns q caps bs = .notFound) ∨
      ∃ n ∈ ns, ∃ p, n.pathSegment = .dynamic p ∧ p.name = x ∧
        ∀ m q (caps : Caps W) bs, routeParam W m x ns q caps bs = capture W m p n.routes q caps bs
  | [] => by simp [routeParam, paramNames]
  | n :: ns => by
    by_cases hc : ∃ p, n.pathSegment = .dynamic p ∧ p.name = x
    · obtain ⟨p, hs, rfl⟩ := hc
      right
      exact ⟨n, by simp, p, hs, rfl, fun m q caps bs => by
        simp only [routeParam, routeParam1_capture hs]⟩
    · have h1 : ∀ m q (caps : Caps W) bs, routeParam1 W m x n q caps bs = none := by
        intro m q caps bs
        obtain ⟨seg, r⟩ := n
        cases seg with
        | static s => simp [routeParam1]
        | dynamic p =>
          have : p.name ≠ x := fun h => hc ⟨p, rfl, h⟩
          simp [routeParam1, this]
      simp only [routeParam, h1]
      rcases routeParam_some (W := W) (ns := ns) (x := x) with ⟨hx, h⟩ | ⟨n', hn', h⟩
      · refine .inl ⟨?_, h⟩
        intro hx'
        simp only [paramNames, List.mem_filterMap, List.mem_cons] at hx hx'
        obtain ⟨n', hn' | hn', hs⟩ := hx'
        · subst hn'
          cases hseg : n'.pathSegment with
          | static s => simp [hseg] at hs
          | dynamic p => exact hc ⟨p, hseg, by simpa [hseg] using hs⟩
        · exact hx ⟨n', hn', hs⟩
      · exact .inr ⟨n', by simp [hn'], h⟩

theorem not_mem_takeWhile_slash (bs : Bytes) : slash ∉ bs.takeWhile (· ≠ slash) := by
  induction bs with
  | nil => simp
  | cons b bs ih =>
    rw [List.takeWhile_cons]
    split
    · rename_i h
      rw [List.mem_cons, not_or]
      exact ⟨(of_decide_eq_true h).symm, ih⟩
    · simp

theorem routeStatic_cases {W : World} {bs : Bytes} :
    ∀ (ns : List NestedRoutes),
      ((∀ n ∈ ns, ∀ s, n.pathSegment = .static s → ¬ bytesOf s <+: bs) ∧
        ∀ m q (caps : Caps W), routeStatic W m ns q caps bs = none) ∨
      ∃ n ∈ ns, ∃ s rest, n.pathSegment = .static s ∧ bs = bytesOf s ++ rest ∧
        ∀ m q (caps : Caps W), routeStatic W m ns q caps bs = some (enter W m n.routes q caps rest)
  | [] => by simp [routeStatic]
  | n :: ns => by
    by_cases h : ∃ s, n.pathSegment = .static s ∧ bytesOf s <+: bs
    · obtain ⟨s, hs, rest, rfl⟩ := h
      right
      exact ⟨n, by simp, s, rest, hs, rfl, fun m q caps => by
        simp only [routeStatic, routeStatic1_prefix hs]⟩
    · have h1 : ∀ m q (caps : Caps W), routeStatic1 W m n q caps bs = none := by
        intro m q caps
        cases hs : n.pathSegment with
        | dynamic p => exact routeStatic1_dynamic hs q caps bs
        | static s => exact routeStatic1_not_prefix hs (fun hp => h ⟨s, hs, hp⟩) q caps
      simp only [routeStatic, h1]
      rcases routeStatic_cases (W := W) (bs := bs) ns with ⟨h2, h3⟩ | ⟨n', hn', h'⟩
      · refine .inl ⟨?_, h3⟩
        intro n' hn' s hs
        rcases List.mem_cons.1 hn' with rfl | hn'
        · exact fun hp => h ⟨s, hs, hp⟩
        · exact h2 n' hn' s hs
      · exact .inr ⟨n', by simp [hn'], h'⟩

/-- The first step of the reference router does not depend on the verb, nor on what was captured. -/
inductive Step (W : World) (rs : List Resource) (ns : List NestedRoutes) (qs : List Param) (bs : Bytes) :
    Prop where
  /-- the path ends here -/
  | here : bs = [] → rs ≠ [] →
      (∀ m q (caps : Caps W), route W m (.mk rs ns qs) q caps bs = answer rs (q ++ qs) caps m) → Step W rs ns qs bs
  | stuck (c : Char) : bs = [] → rs = [] → paramNames ns ≠ [] → staticTexts ns = [[c]] →
      (∀ m q (caps : Caps W), route W m (.mk rs ns qs) q caps bs = .panic) → Step W rs ns qs bs
  | static (n : NestedRoutes) (s : Str) (rest : Bytes) : ¬ (bs = [] ∧ rs ≠ []) → n ∈ ns →
      n.pathSegment = .static s → bs = bytesOf s ++ rest → preferStatic ns = true →
      (∀ m q (caps : Caps W), route W m (.mk rs ns qs) q caps bs =
        enter W m n.routes (q ++ qs) caps rest) → Step W rs ns qs bs
  | param (n : NestedRoutes) (p : Param) : ¬ (bs = [] ∧ rs ≠ []) → n ∈ ns →
      n.pathSegment = .dynamic p → captor ns = some p.name →
      (preferStatic ns = true → ∀ s ∈ staticTexts ns, ¬ bytesOf s <+: bs) →
      (∀ m q (caps : Caps W), route W m (.mk rs ns qs) q caps bs =
        capture W m p n.routes (q ++ qs) caps bs) → Step W rs ns qs bs
  | notFound : ¬ (bs = [] ∧ rs ≠ []) → paramNames ns = [] →
      (∀ s ∈ staticTexts ns, ¬ bytesOf s <+: bs) →
      (∀ m q (caps : Caps W), route W m (.mk rs ns qs) q caps bs = .notFound) → Step W rs ns qs bs

theorem captor_mem {ns : List NestedRoutes} {x : Str} (h : captor ns = some x) : x ∈ paramNames ns := by
  unfold captor at h
  cases hp : paramNames ns with
  | nil => simp [hp] at h
  | cons y ys =>
    rw [hp] at h
    simp only [Option.some.injEq] at h
    have : ∀ (ys : List Str) (y : Str), ys.foldl minName y ∈ y :: ys := by
      intro ys
      induction ys with
      | nil => intro y; simp
      | cons z zs ih =>
        intro y
        simp only [List.foldl_cons]
        rcases List.mem_cons.1 (ih (minName y z)) with h | h
        · rw [h]; unfold minName; split <;> simp
        · simp [h]
    rw [← h]; exact this ys y

theorem captor_eq_none {ns : List NestedRoutes} : captor ns = none ↔ paramNames ns = [] := by
  unfold captor
  cases paramNames ns <;> simp

theorem mem_staticTexts' {ns : List NestedRoutes} {s : Str} :
    s ∈ staticTexts ns ↔ ∃ n ∈ ns, n.pathSegment = .static s := by
  simp only [staticTexts, List.mem_filterMap]
  constructor
  · rintro ⟨n, hn, h⟩
    refine ⟨n, hn, ?_⟩
    cases hs : n.pathSegment with
    | static t => simpa [hs] using h
    | dynamic p => simp [hs] at h
  · rintro ⟨n, hn, h⟩
    exact ⟨n, hn, by simp [h]⟩

theorem route_step (W : World) (rs : List Resource) (ns : List NestedRoutes) (qs : List Param)
    (bs : Bytes) : Step W rs ns qs bs := by
  by_cases h1 : bs = [] ∧ rs ≠ []
  · exact .here h1.1 h1.2 fun m q caps => by simp only [route]; rw [if_pos h1]
  · by_cases h2 : stuck ns bs = true
    · have h2' := h2
      simp only [stuck, Bool.and_eq_true, List.isEmpty_iff, Bool.not_eq_true', beq_iff_eq] at h2'
      obtain ⟨⟨h3, h4⟩, h5⟩ := h2'
      have hrs : rs = [] := by
        by_cases hrs : rs = []
        · exact hrs
        · exact absurd ⟨h3, hrs⟩ h1
      have : ∃ c, staticTexts ns = [[c]] := by
        cases hst : staticTexts ns with
        | nil => simp [hst] at h5
        | cons a as =>
          rw [hst] at h5
          cases as with
          | cons b bs => simp at h5
          | nil =>
            simp only [List.map_cons, List.map_nil, List.cons.injEq, and_true] at h5
            obtain ⟨c, hc⟩ := List.length_eq_one_iff.1 h5
            exact ⟨c, by rw [hc]⟩
      obtain ⟨c, hc⟩ := this
      exact .stuck c h3 hrs (by simpa using h4) hc fun m q caps => by
        simp only [route]; rw [if_neg h1, if_pos h2]
    · have hroute : ∀ m q (caps : Caps W), route W m (.mk rs ns qs) q caps bs =
          match (if preferStatic ns then routeStatic W m ns (q ++ qs) caps bs else none) with
          | some o => o
          | none =>
            match captor ns with
            | none => .notFound
            | some x => routeParam W m x ns (q ++ qs) caps bs := by
        intro m q caps
        simp only [route]; rw [if_neg h1, if_neg h2]
        rfl
      have hdyn : (preferStatic ns = true → (∀ s ∈ staticTexts ns, ¬ bytesOf s <+: bs) ∧
          ∀ m q (caps : Caps W), routeStatic W m ns q caps bs = none) → Step W rs ns qs bs := by
        intro hpre
        have hroute' : ∀ m q (caps : Caps W), route W m (.mk rs ns qs) q caps bs =
            match captor ns with
            | none => .notFound
            | some x => routeParam W m x ns (q ++ qs) caps bs := by
          intro m q caps
          rw [hroute]
          by_cases hp : preferStatic ns = true
          · simp only [hp, if_true, (hpre hp).2]
          · simp only [hp]; rfl
        cases hcap : captor ns with
        | none =>
          have hp := captor_eq_none.1 hcap
          have : preferStatic ns = true := by simp [preferStatic, hp]
          exact .notFound h1 hp (hpre this).1 fun m q caps => by rw [hroute', hcap]
        | some x =>
          rcases routeParam_some (W := W) (ns := ns) (x := x) with ⟨hx, _⟩ | ⟨n, hn, p, hseg, rfl, h⟩
          · exact absurd (captor_mem hcap) hx
          · exact .param n p h1 hn hseg hcap (fun hp => (hpre hp).1) fun m q caps => by
              rw [hroute', hcap]; exact h m _ caps bs
      by_cases hpre : preferStatic ns = true
      · rcases routeStatic_cases (W := W) (bs := bs) ns with ⟨h3, h4⟩ | ⟨n, hn, s, rest, hseg, hbs, h⟩
        · refine hdyn fun _ => ⟨fun s hs => ?_, h4⟩
          obtain ⟨n, hn, hseg⟩ := mem_staticTexts'.1 hs
          exact h3 n hn s hseg
        · exact .static n s rest h1 hn hseg hbs hpre fun m q caps => by
            rw [hroute]; simp only [hpre, if_true, h]
      · exact hdyn fun h => absurd h hpre

theorem route_classified (W : World) (r : Routes) : ∀ (q : List Param) (caps : Caps W) (bs : Bytes),
    Classified W r q caps bs (fun m => route W m r q caps bs) := by
  induction r using Routes.ind with
  | h rs ns qs ih =>
    intro q caps bs
    have hent : ∀ n ∈ ns, (∀ {segs above node}, LiveRoute n.routes segs above node →
          LiveRoute (.mk rs ns qs) (n.pathSegment :: segs) (qs ++ above) node) →
        ∀ (caps0 : Caps W) (part : Bytes), (∀ {segs caps' parts}, Fits W segs caps' parts →
          Fits W (n.pathSegment :: segs) (caps0 ++ caps') (part :: parts)) → ∀ rest,
        Classified W (.mk rs ns qs) q caps (part ++ rest)
          (fun m => enter W m n.routes (q ++ qs) (caps ++ caps0) rest) := by
      intro n hn hr caps0 part hfit rest
      cases rest with
      | nil =>
        rw [List.append_nil]
        exact classified_atEnd hr (by simpa using hfit .nil)
      | cons b rest =>
        simp only [enter]
        by_cases hb : b = slash
        · rw [hb]
          simp only [if_true]
          exact (ih n hn (q ++ qs) (caps ++ caps0) rest).lift hr hfit
        · simp only [hb, if_false]; exact .inr (.inl fun _ => rfl)
    rcases route_step W rs ns qs bs with ⟨h1, h2, h⟩ | ⟨c, h1, h2, h3, h4, h⟩ |
      ⟨n, s, rest, _, hn, hseg, hbs, _, h⟩ | ⟨n, p, _, hn, hseg, hcap, _, h⟩ | ⟨_, _, _, h⟩
    · left
      exact ⟨[], [], .mk rs ns qs, [], [], .here _, h2, .nil, .inl (by simp [h1]), fun m => by
        simp only [h]; simp⟩
    · right; right; right
      exact ⟨fun m => h m q caps, .inr ⟨[], [], .mk rs ns qs, [], [], c, .here _, .nil, by simp [h1], h2, h3, h4⟩⟩
    · subst hbs
      simp only [h]
      have := hent n hn (live_static hn hseg) [] (bytesOf s) (fun h => by rw [hseg]; exact .static s h) rest
      simpa using this
    · have hr := fun {segs above node} =>
        live_dynamic (rs := rs) (qs := qs) (segs := segs) (above := above) (node := node) hn hseg hcap
      have hgoes : GoesOn [] (bs.takeWhile (· ≠ slash)) bs := by
        refine ⟨not_mem_takeWhile_slash bs, bs.dropWhile (· ≠ slash), ?_, ?_⟩
        · simp only [spell_nil, List.nil_append, List.takeWhile_append_dropWhile]
        · cases hd : bs.dropWhile (· ≠ slash) with
          | nil => exact .inl rfl
          | cons b rest => rw [dropWhile_slash hd]; exact .inr ⟨rest, rfl⟩
      simp only [h, capture]
      cases hu : fromUtf8 (bs.takeWhile (· ≠ slash)) with
      | none =>
        right; right; right
        refine ⟨fun _ => rfl, .inl ⟨[], p, qs, n.routes, [], [], _, ?_, .nil, hgoes, hu⟩⟩
        simpa [hseg] using hr (.here _)
      | some text =>
        simp only
        cases hp : W.parse p.typ text with
        | error e =>
          right; right; left
          refine ⟨[], p, qs, n.routes, [], [], _, text, e, ?_, .nil, hgoes, hu, hp, fun _ => rfl⟩
          simpa [hseg] using hr (.here _)
        | ok v =>
          simp only
          have := hent n hn hr [(p, v)] (bs.takeWhile (· ≠ slash)) (fun h => by
            rw [hseg]
            exact .dynamic (not_mem_takeWhile_slash bs) hu hp h) (bs.dropWhile (· ≠ slash))
          rwa [List.takeWhile_append_dropWhile] at this
    · right; left; exact fun m => h m q caps

theorem stripSlash_eq (path : Bytes) :
    (if path.take 1 = [slash] then path.drop 1 else path) = stripSlash path := by
  cases path with
  | nil => rfl
  | cons b bs => simp [stripSlash]

theorem referenceRouter_eq (W : World) (r : Routes) (path m : Bytes) :
    referenceRouter W r path m = route W m r [] [] (stripSlash path) := by
  simp only [referenceRouter, stripSlash_eq]

end Wayfinder
