import Verif.Spec.Exact
import Verif.Proofs.Reach
/-!
# The reference router on the pieces of a path
-/

namespace Wayfinder

variable {W : World} {m : Bytes}

/-- The pieces with `/` between them. -/
def glue : List Bytes → Bytes
  | [] => []
  | [p] => p
  | p :: q :: ps => p ++ slash :: glue (q :: ps)

/-- What comes behind a piece. -/
def behind : List Bytes → Bytes
  | [] => []
  | p :: ps => slash :: glue (p :: ps)

theorem glue_cons (p : Bytes) (ps : List Bytes) : glue (p :: ps) = p ++ behind ps := by
  cases ps <;> simp [glue, behind]

theorem cut_ne_nil : ∀ bs : Bytes, cut bs ≠ []
  | [] => by simp [cut]
  | b :: bs => by
    simp only [cut]
    split
    · simp
    · split <;> simp

theorem glue_cut : ∀ bs : Bytes, glue (cut bs) = bs
  | [] => rfl
  | b :: bs => by
    have ih := glue_cut bs
    simp only [cut]
    split
    · rename_i hb
      cases hc : cut bs with
      | nil => exact absurd hc (cut_ne_nil bs)
      | cons p ps => rw [hc] at ih; simp [glue, ih, hb]
    · cases hc : cut bs with
      | nil => exact absurd hc (cut_ne_nil bs)
      | cons p ps => rw [hc, glue_cons] at ih; simp [glue_cons, ih]

theorem cut_slash : ∀ (bs : Bytes), ∀ p ∈ cut bs, slash ∉ p
  | [], p, hp => by simp [cut] at hp; simp [hp]
  | b :: bs, p, hp => by
    have ih := cut_slash bs
    simp only [cut] at hp
    split at hp
    · rcases List.mem_cons.1 hp with rfl | hp
      · simp
      · exact ih p hp
    · rename_i hb
      cases hc : cut bs with
      | nil => exact absurd hc (cut_ne_nil bs)
      | cons q ps =>
        rw [hc] at hp ih
        rcases List.mem_cons.1 hp with rfl | hp
        · intro h
          rcases List.mem_cons.1 h with h | h
          · exact hb h.symm
          · exact ih q (by simp) h
        · exact ih p (by simp [hp])

/-- Pieces without `/`. -/
def Clear (ps : List Bytes) : Prop := ∀ p ∈ ps, slash ∉ p

theorem Clear.tail {p : Bytes} {ps : List Bytes} (h : Clear (p :: ps)) : Clear ps := fun q hq => h q (by simp [hq])

theorem Clear.head {p : Bytes} {ps : List Bytes} (h : Clear (p :: ps)) : slash ∉ p := h p (by simp)

/-- The reference router on pieces. -/
def go (W : World) (m : Bytes) (r : Routes) (q : List Param) (caps : Caps W) (ps : List Bytes) : Outcome W :=
  match ps with
  | [] => atEnd m r q caps
  | p :: ps => route W m r q caps (glue (p :: ps))

theorem enter_behind (r : Routes) (q : List Param) (caps : Caps W) (ps : List Bytes) :
    enter W m r q caps (behind ps) = go W m r q caps ps := by
  cases ps <;> simp [enter, behind, go]

theorem glue_nil_iff {p : Bytes} {ps : List Bytes} : glue (p :: ps) = [] ↔ p = [] ∧ ps = [] := by
  rw [glue_cons]
  cases ps <;> simp [behind]

theorem behind_form (ps : List Bytes) : behind ps = [] ∨ ∃ more, behind ps = slash :: more := by
  cases ps <;> simp [behind]

/-- A static text that begins the rest of the path begins its first piece. -/
theorem prefix_glue {s : Bytes} (hs : slash ∉ s) {p : Bytes} {ps : List Bytes} (h : s <+: glue (p :: ps)) : s <+: p := by
  rw [glue_cons] at h
  cases ps with
  | nil => simpa [behind] using h
  | cons q ps => exact prefix_slash hs h

theorem go_static {r sub : Routes} {s : Str} (hs : Sound r) (hn : NestedRoutes.mk (.static s) sub ∈ r.routes)
    (hpre : paramNames r.routes = [] ∨ staticTexts r.routes = [s]) (ps : List Bytes) (q : List Param) (caps : Caps W) :
    go W m r q caps (bytesOf s :: ps) = go W m sub (q ++ r.queryParameters) caps ps := by
  obtain ⟨rs, ns, qs⟩ := r
  change _ ∈ ns at hn
  have hm : s ∈ staticTexts ns := mem_staticTexts'.2 ⟨_, hn, rfl⟩
  have hok : LocalOk ns := hs.shapely _ _ _ (.here _)
  change route W m (.mk rs ns qs) q caps (glue (bytesOf s :: ps)) = go W m sub (q ++ qs) caps ps
  rw [glue_cons, route_static hok (distinctSiblings_mk.1 hs.distinct).1 hn rfl
    (plainTexts_static hs.plain hm).1 hpre]
  exact enter_behind _ _ _ _

theorem go_takes {r sub : Routes} {p : Param} {part : Bytes} {ps : List Bytes} (hs : Sound r)
    (ht : Takes r p sub part ps) (hsl : slash ∉ part) (q : List Param) (caps : Caps W) :
    go W m r q caps (part :: ps) =
      match fromUtf8 part with
      | none => .panic
      | some text =>
        match W.parse p.typ text with
        | .error e => .err p.name e
        | .ok v => go W m sub (q ++ r.queryParameters) (caps ++ [(p, v)]) ps := by
  obtain ⟨rs, ns, qs⟩ := r
  obtain ⟨hn, hcap, hno, hgo⟩ := ht
  change _ ∈ ns at hn
  change captor ns = _ at hcap
  change ∀ s, staticTexts ns = [s] → _ at hno
  change _ → _ → rs = [] ∧ ∀ c, staticTexts ns ≠ [[c]] at hgo
  have hok : LocalOk ns := hs.shapely _ _ _ (.here _)
  have hds := (distinctSiblings_mk.1 hs.distinct).1
  have hpn : paramNames ns ≠ [] := by
    intro h; rw [captor_eq_none.2 h] at hcap; cases hcap
  simp only [go]
  rcases route_step W rs ns qs (glue (part :: ps)) with ⟨h1, h2, h⟩ | ⟨c, h1, h2, h3, h4, h⟩ |
      ⟨n', s', rest', _, hn', hseg', hbs', hpref, h⟩ | ⟨n', p', _, hn', hseg', hcap', _, h⟩ |
      ⟨_, hp, _, h⟩
  · obtain ⟨h5, h6⟩ := glue_nil_iff.1 h1
    exact absurd (hgo h5 h6).1 h2
  · obtain ⟨h5, h6⟩ := glue_nil_iff.1 h1
    exact absurd h4 ((hgo h5 h6).2 c)
  · have hm : s' ∈ staticTexts ns := mem_staticTexts'.2 ⟨n', hn', hseg'⟩
    have hone : staticTexts ns = [s'] := by
      simp only [preferStatic, Bool.or_eq_true, List.isEmpty_iff, beq_iff_eq] at hpref
      rcases hpref with h | h
      · exact absurd h hpn
      · obtain ⟨a, ha⟩ := List.length_eq_one_iff.1 h
        rw [ha] at hm ⊢
        simp only [List.mem_cons, List.not_mem_nil, or_false] at hm
        rw [hm]
    have hsl' : slash ∉ bytesOf s' := slash_not_mem_bytesOf (plainTexts_static hs.plain hm).2 (hok.ascii s' hm)
    exact absurd (prefix_glue hsl' ⟨rest', hbs'.symm⟩) (hno s' hone)
  · have : n' = NestedRoutes.mk (.dynamic p) sub := dynamic_unique hds hn' hn hseg' rfl (by
      rw [hcap, Option.some.injEq] at hcap'; exact hcap'.symm)
    subst this
    simp only [NestedRoutes.pathSegment_mk, PathSegment.dynamic.injEq] at hseg'
    subst hseg'
    obtain ⟨h1, h2⟩ := takeWhile_slash_append hsl (behind ps) (behind_form ps)
    rw [h]
    simp only [capture]
    rw [glue_cons, h1, h2]
    simp only [enter_behind]
    rfl
  · exact absurd hp hpn

/-- Where the pieces arrive, the block reached decides. -/
theorem arrives_go {r node : Routes} {segs : List PathSegment} {above : List Param} {caps : Caps W}
    {pieces rest : List Bytes} (h : Arrives W r segs above caps pieces node rest) (hs : Sound r) (hc : Clear pieces)
    (q : List Param) (caps0 : Caps W) :
    go W m r q caps0 pieces = go W m node (q ++ above) (caps0 ++ caps) rest := by
  induction h generalizing q caps0 with
  | here => simp
  | static hn hpre hf ih =>
    rw [go_static hs hn hpre, ih (hs.child (.static hn (.here _))) hc.tail]
    simp
  | dynamic ht hu hp hf ih =>
    rw [go_takes hs ht hc.head]
    simp only [hu, hp]
    rw [ih (hs.child (.dynamic ht.child ht.first (.here _))) hc.tail]
    simp

theorem Arrives.live {r node : Routes} {segs : List PathSegment} {above : List Param} {caps : Caps W}
    {pieces rest : List Bytes} (h : Arrives W r segs above caps pieces node rest) : LiveRoute r segs above node := by
  induction h with
  | here => exact .here _
  | static hn _ _ ih => exact .static hn ih
  | dynamic ht _ _ _ ih => exact .dynamic ht.child ht.first ih

theorem Arrives.clear {r node : Routes} {segs : List PathSegment} {above : List Param} {caps : Caps W}
    {pieces rest : List Bytes} (h : Arrives W r segs above caps pieces node rest) (hc : Clear pieces) : Clear rest := by
  induction h with
  | here => exact hc
  | static hn _ _ ih => exact ih hc.tail
  | dynamic ht _ _ _ ih => exact ih hc.tail

theorem go_finished {r : Routes} {rest : List Bytes} (h : Finished rest) (hr : r.resources ≠ []) (q : List Param)
    (caps : Caps W) : go W m r q caps rest = answer r.resources (q ++ r.queryParameters) caps m := by
  rcases h with rfl | rfl
  · simp [go, atEnd, hr]
  · obtain ⟨rs, ns, qs⟩ := r
    have hr' : rs ≠ [] := hr
    simp [go, glue, route, hr', Routes.resources, Routes.queryParameters]

theorem go_cliff {r : Routes} (h : Cliff r) (q : List Param) (caps : Caps W) : go W m r q caps [[]] = .panic := by
  obtain ⟨rs, ns, qs⟩ := r
  obtain ⟨h1, h2, c, h3⟩ := h
  change rs = [] at h1
  change paramNames ns ≠ [] at h2
  change staticTexts ns = [[c]] at h3
  simp [go, glue, route, h1, stuck, h2, h3]

/-- Every request is one of these. -/
inductive Exactly (W : World) (r : Routes) (pieces : List Bytes) : Prop where
  | answered {segs above caps node rest} : Arrives W r segs above caps pieces node rest → Finished rest →
      node.resources ≠ [] → Exactly W r pieces
  | fails {segs above caps node p sub part more text e} : Arrives W r segs above caps pieces node (part :: more) →
      Takes node p sub part more → fromUtf8 part = some text → W.parse p.typ text = .error e → Exactly W r pieces
  | badText {segs above caps node p sub part more} : Arrives W r segs above caps pieces node (part :: more) →
      Takes node p sub part more → fromUtf8 part = none → Exactly W r pieces
  | cliff {segs above caps node} : Arrives W r segs above caps pieces node [[]] → Cliff node → Exactly W r pieces
  | notFound : (∀ m q (caps : Caps W), go W m r q caps pieces = .notFound) → Exactly W r pieces

theorem Exactly.static {r sub : Routes} {s : Str} (hs : Sound r) (hn : NestedRoutes.mk (.static s) sub ∈ r.routes)
    (hpre : paramNames r.routes = [] ∨ staticTexts r.routes = [s]) {pieces : List Bytes} (h : Exactly W sub pieces) :
    Exactly W r (bytesOf s :: pieces) := by
  cases h with
  | answered h h1 h2 => exact .answered (.static hn hpre h) h1 h2
  | fails h h1 h2 h3 => exact .fails (.static hn hpre h) h1 h2 h3
  | badText h h1 h2 => exact .badText (.static hn hpre h) h1 h2
  | cliff h h1 => exact .cliff (.static hn hpre h) h1
  | notFound h => exact .notFound fun m q caps => by rw [go_static hs hn hpre, h]

theorem Exactly.dynamic {r sub : Routes} {p : Param} {part : Bytes} {ps : List Bytes} (hs : Sound r)
    (ht : Takes r p sub part ps) (hsl : slash ∉ part) {text : Str} {v : W.V} (hu : fromUtf8 part = some text)
    (hp : W.parse p.typ text = .ok v) (h : Exactly W sub ps) : Exactly W r (part :: ps) := by
  cases h with
  | answered h h1 h2 => exact .answered (.dynamic ht hu hp h) h1 h2
  | fails h h1 h2 h3 => exact .fails (.dynamic ht hu hp h) h1 h2 h3
  | badText h h1 h2 => exact .badText (.dynamic ht hu hp h) h1 h2
  | cliff h h1 => exact .cliff (.dynamic ht hu hp h) h1
  | notFound h =>
    refine .notFound fun m q caps => ?_
    rw [go_takes hs ht hsl]
    simp only [hu, hp]
    rw [h]

theorem exactly_all (W : World) (r : Routes) : Sound r → ∀ pieces, Clear pieces → Exactly W r pieces := by
  induction r using Routes.ind with
  | h rs ns qs ih =>
    intro hs pieces hc
    cases pieces with
    | nil =>
      by_cases hrs : rs = []
      · exact .notFound fun m q caps => by simp [go, atEnd, Routes.resources, hrs]
      · exact .answered (.here _ _) (.inl rfl) hrs
    | cons part ps =>
      have hok : LocalOk ns := hs.shapely _ _ _ (.here _)
      rcases route_step W rs ns qs (glue (part :: ps)) with ⟨h1, h2, h⟩ | ⟨c, h1, h2, h3, h4, h⟩ |
          ⟨n', s', rest', hgo, hn', hseg', hbs', hpref, h⟩ | ⟨n', p', hgo, hn', hseg', hcap', hno, h⟩ |
          ⟨_, hp, _, h⟩
      · obtain ⟨rfl, rfl⟩ := glue_nil_iff.1 h1
        exact .answered (.here _ _) (.inr rfl) h2
      · obtain ⟨rfl, rfl⟩ := glue_nil_iff.1 h1
        exact .cliff (.here _ _) ⟨h2, h3, c, h4⟩
      · obtain ⟨seg, sub⟩ := n'
        simp only [NestedRoutes.pathSegment_mk] at hseg'
        subst hseg'
        have hm : s' ∈ staticTexts ns := mem_staticTexts'.2 ⟨_, hn', rfl⟩
        have hsl' : slash ∉ bytesOf s' := slash_not_mem_bytesOf (plainTexts_static hs.plain hm).2 (hok.ascii s' hm)
        obtain ⟨x, hx⟩ := prefix_glue hsl' ⟨rest', hbs'.symm⟩
        have hpre : paramNames ns = [] ∨ staticTexts ns = [s'] := by
          simp only [preferStatic, Bool.or_eq_true, List.isEmpty_iff, beq_iff_eq] at hpref
          rcases hpref with h | h
          · exact .inl h
          · obtain ⟨a, ha⟩ := List.length_eq_one_iff.1 h
            rw [ha] at hm ⊢
            simp only [List.mem_cons, List.not_mem_nil, or_false] at hm
            rw [hm]; exact .inr rfl
        cases x with
        | nil =>
          rw [List.append_nil] at hx
          subst hx
          exact (ih _ hn' (hs.child (.static (r := .mk rs ns qs) hn' (.here _))) ps hc.tail).static hs
            (r := .mk rs ns qs) hn' hpre
        | cons b x =>
          refine .notFound fun m q caps => ?_
          simp only [go]
          rw [h]
          have hb : b ≠ slash := by
            rintro rfl
            exact hc.head (by rw [← hx]; simp)
          have : rest' = b :: (x ++ behind ps) := by
            rw [glue_cons, ← hx, List.append_assoc] at hbs'
            exact (List.append_cancel_left hbs').symm
          rw [this]
          simp [enter, hb]
      · obtain ⟨seg, sub⟩ := n'
        simp only [NestedRoutes.pathSegment_mk] at hseg'
        subst hseg'
        have ht : part = [] ∧ ps = [] ∧ Cliff (.mk rs ns qs) ∨ Takes (.mk rs ns qs) p' sub part ps := by
          by_cases hcl : part = [] ∧ ps = [] ∧ Cliff (.mk rs ns qs)
          · exact .inl hcl
          · refine .inr ⟨hn', hcap', fun s hst hpf => ?_, fun h1 h2 => ?_⟩
            · have hst' : staticTexts ns = [s] := hst
              exact hno (by simp [preferStatic, hst']) s (by rw [hst']; simp) (by
                rw [glue_cons]; exact hpf.trans (List.prefix_append _ _))
            · have hrs : rs = [] := by
                by_contra hrs
                exact hgo ⟨glue_nil_iff.2 ⟨h1, h2⟩, hrs⟩
              refine ⟨hrs, fun c hcc => hcl ⟨h1, h2, hrs, ?_, c, hcc⟩⟩
              intro hpn
              change paramNames ns = [] at hpn
              rw [captor_eq_none.2 hpn] at hcap'
              cases hcap'
        rcases ht with ⟨rfl, rfl, hcl⟩ | ht
        · exact .cliff (.here _ _) hcl
        · cases hu : fromUtf8 part with
          | none => exact .badText (.here _ _) ht hu
          | some text =>
            cases hp : W.parse p'.typ text with
            | error e => exact .fails (.here _ _) ht hu hp
            | ok v =>
              exact (ih _ hn' (hs.child (.dynamic (r := .mk rs ns qs) hn' hcap' (.here _))) ps hc.tail).dynamic hs
                ht hc.head hu hp
      · exact .notFound fun m q caps => h m q caps

/-- What the outcome is in each case. -/
theorem go_answered {r node : Routes} {segs : List PathSegment} {above : List Param} {caps : Caps W}
    {pieces rest : List Bytes} (h : Arrives W r segs above caps pieces node rest) (hs : Sound r) (hc : Clear pieces)
    (hf : Finished rest) (hr : node.resources ≠ []) (m : Bytes) :
    go W m r [] [] pieces = answer node.resources (above ++ node.queryParameters) caps m := by
  rw [arrives_go h hs hc, go_finished hf hr]
  simp

theorem go_fails {r node sub : Routes} {segs : List PathSegment} {above : List Param} {caps : Caps W}
    {pieces more : List Bytes} {part : Bytes} {p : Param} {text : Str} {e : W.E}
    (h : Arrives W r segs above caps pieces node (part :: more)) (hs : Sound r) (hc : Clear pieces)
    (ht : Takes node p sub part more) (hu : fromUtf8 part = some text) (hp : W.parse p.typ text = .error e) (m : Bytes) :
    go W m r [] [] pieces = .err p.name e := by
  rw [arrives_go h hs hc, go_takes (hs.child h.live) ht (h.clear hc).head]
  simp [hu, hp]

theorem go_badText {r node sub : Routes} {segs : List PathSegment} {above : List Param} {caps : Caps W}
    {pieces more : List Bytes} {part : Bytes} {p : Param}
    (h : Arrives W r segs above caps pieces node (part :: more)) (hs : Sound r) (hc : Clear pieces)
    (ht : Takes node p sub part more) (hu : fromUtf8 part = none) (m : Bytes) : go W m r [] [] pieces = .panic := by
  rw [arrives_go h hs hc, go_takes (hs.child h.live) ht (h.clear hc).head]
  simp [hu]

theorem go_atCliff {r node : Routes} {segs : List PathSegment} {above : List Param} {caps : Caps W}
    {pieces : List Bytes} (h : Arrives W r segs above caps pieces node [[]]) (hs : Sound r) (hc : Clear pieces)
    (hcl : Cliff node) (m : Bytes) : go W m r [] [] pieces = .panic := by
  rw [arrives_go h hs hc, go_cliff hcl]

theorem route_cut (r : Routes) (q : List Param) (caps : Caps W) (bs : Bytes) :
    route W m r q caps bs = go W m r q caps (cut bs) := by
  have h := glue_cut bs
  cases hc : cut bs with
  | nil => exact absurd hc (cut_ne_nil bs)
  | cons p ps => rw [hc] at h; simp only [go]; rw [h]

end Wayfinder
