import Verif.Spec.Guarded
import Verif.Props.Decide
import Verif.Props.RoundTrip
/-!
# C02, C04, C12 and C15 for parameters whose types keep clear of their static siblings
-/

namespace Wayfinder

variable {W : World} {r : Routes} {body : List Stmt}

theorem Guarded.static {sub : Routes} {s : Str} (ht : Guarded W r) (hn : NestedRoutes.mk (.static s) sub ∈ r.routes)
    (h1 : paramNames r.routes = [] ∨ staticTexts r.routes = [s]) : Guarded W sub :=
  fun _ _ _ h => ht _ _ _ (.static hn h1 h)

theorem Guarded.dynamic {sub : Routes} {p : Param} (ht : Guarded W r) (hn : NestedRoutes.mk (.dynamic p) sub ∈ r.routes)
    (hc : captor r.routes = some p.name) : Guarded W sub :=
  fun _ _ _ h => ht _ _ _ (.dynamic hn hc h)

theorem utf8_front : ∀ {a b : Str} {rest : Bytes}, utf8 a ++ rest = utf8 b → ∃ t, b = a ++ t
  | [], b, _, _ => ⟨b, rfl⟩
  | c :: a, [], _, h => by
    have := List.append_eq_nil_iff.1 h
    exact absurd this.1 (utf8_nonempty (by simp))
  | c :: a, d :: b, rest, h => by
    rw [utf8_cons, utf8_cons, List.append_assoc] at h
    obtain rfl := encode_inj h
    obtain ⟨t, rfl⟩ := utf8_front (List.append_cancel_left h)
    exact ⟨t, rfl⟩

/-- A segment whose text a type accepts does not begin with a text that the type rejects. -/
theorem rejects_prefix {typ s : Str} (h : Rejects W typ s) (hs : ∀ c ∈ s, c.toNat < 128) {part : Bytes} {text : Str} {v : W.V}
    (hu : fromUtf8 part = some text) (hv : W.parse typ text = .ok v) : ¬ bytesOf s <+: part := by
  rintro ⟨rest, rfl⟩
  rw [← utf8_ascii hs] at hu
  obtain ⟨t, rfl⟩ := utf8_front (utf8_of_fromUtf8 hu)
  exact h t v hv

theorem Open.fits_follows {node : Routes} {segs : List PathSegment} {above : List Param} (ho : Open r segs above node)
    (ht : Guarded W r) (hs : Sound r) {caps : Caps W} {parts : List Bytes} (hf : Fits W segs caps parts) (hne : [] ∉ parts) :
    Follows W r segs above caps parts node := by
  induction ho generalizing caps parts with
  | here => cases hf; exact .here _
  | @static r sub node s segs above hn h1 ho ih =>
    cases hf with
    | static _ hf =>
      exact .static hn h1 (ih (ht.static hn h1) (hs.child (.static hn (.here _))) hf fun h => hne (by simp [h]))
  | @dynamic r sub node p segs above hn hc ho ih =>
    cases hf with
    | dynamic h1 h2 h3 hf =>
      refine .dynamic hn hc (fun h => hne (by simp [h])) h1 (fun s hss => ?_) h2 h3
        (ih (ht.dynamic hn hc) (hs.child (.dynamic hn hc (.here _))) hf fun h => hne (by simp [h]))
      exact rejects_prefix (ht _ _ _ (.here _) _ _ hn _ hss) ((hs.shapely _ _ _ (.here _)).lt (by rw [hss]; simp)) h2 h3

/-- **C02, guarded configurations.** If all routes with resources are open, and parameters with one static sibling have types that
reject the texts that begin like it, then every instance of a declared route, with no empty segment, is answered with its resource. -/
theorem C02_guarded (h : Supported r body) (hp : PlainTexts r) (ho : AllOpen r) (ht : Guarded W r) {segs : List PathSegment}
    {above : List Param} {node : Routes} (hr : HasRoute r segs above node) {caps : Caps W} {parts : List Bytes}
    (hf : Fits W segs caps parts) (hne : [] ∉ parts) {before after : List Resource} {res : Resource}
    (hres : node.resources = before ++ res :: after) (hfirst : ∀ o ∈ before, o.method ≠ res.method) {path : Bytes}
    (hpath : Spells parts (stripSlash path)) :
    (callMatchRoute W body path (verbBytes res.method)).isMatch res.isRedirect (matchOf res caps (above ++ node.queryParameters)) :=
  C02_follows h hp ((ho _ _ _ hr (by rw [hres]; simp)).fits_follows ht (h.sound hp) hf hne) hres hfirst hpath

/-- **C04, guarded configurations.** Then `NotFound` is only returned for paths that are no instance of a declared route with
resources, with no empty segment. -/
theorem C04_guarded (h : Supported r body) (hp : PlainTexts r) (ho : AllOpen r) (ht : Guarded W r) {path m : Bytes}
    (hn : callMatchRoute W body path m = .notFound) :
    ¬ ∃ segs above node caps parts, HasRoute r segs above node ∧ node.resources ≠ [] ∧ Fits W segs caps parts ∧ [] ∉ parts ∧
      Spells parts (stripSlash path) := by
  rintro ⟨segs, above, node, caps, parts, h1, h2, h3, h4, h5⟩
  have hf := (ho _ _ _ h1 h2).fits_follows ht (h.sound hp) h3 h4
  rw [call_eq h, follows_answer hf (h.sound hp) h2 h5] at hn
  have := answer_answered node.resources ([] ++ above ++ node.queryParameters) ([] ++ caps) m
  rw [hn] at this
  cases this

/-- **C12, guarded configurations.** If parameters with one static sibling have types that reject the texts that begin like it, then
parameters capture every segment that their type accepts. -/
theorem C12_guarded (h : Supported r body) (hp : PlainTexts r) (ht : Guarded W r) : ParamElse W r body := by
  intro segs above caps parts node hf p sub hn hc part text v h1 h2 h3 h4 h5
  have hs := (h.sound hp).child hf.live
  match hss : staticTexts node.routes with
  | [] => exact C12_capture_partial h hp hf hn hc h1 h2 (by simp [hss]) h4 h5
  | [s] =>
    refine C12_capture_partial h hp hf hn hc h1 h2 (fun s' hs' => ?_) h4 h5
    rw [hss, List.mem_singleton] at hs'
    subst hs'
    exact rejects_prefix (ht _ _ _ hf.open _ _ hn _ hss) ((hs.shapely _ _ _ (.here _)).lt (by rw [hss]; simp)) h4 h5
  | _ :: _ :: _ => exact C11_dead_statics h hp hf hn hc (by rw [hss]; simp) h1 h2 h4 h5

/-- Along an open route of a guarded configuration all texts that parse back follow. -/
theorem Open.texts_follow {node : Routes} {segs : List PathSegment} {above : List Param} (h : Open r segs above node) (ht : Guarded W r)
    (hs : Sound r) {display : W.V → Str} {caps : Caps W} {texts : List Str} (htx : Texts display segs caps texts)
    (hv : ∀ pv ∈ caps, W.parse pv.1.typ (display pv.2) = .ok pv.2 ∧ display pv.2 ≠ [] ∧ '/' ∉ display pv.2) :
    Follows W r segs above caps (texts.map utf8) node := by
  induction h generalizing caps texts with
  | here => cases htx; exact .here _
  | @static r sub node s segs above hn h1 _ ih =>
    cases htx with
    | static _ htx =>
      have hlt := (hs.shapely _ _ _ (.here _)).lt (mem_staticTexts'.2 ⟨_, hn, rfl⟩)
      rw [List.map_cons, utf8_ascii hlt]
      exact .static hn h1 (ih (ht.static hn h1) (hs.child (.static hn (.here _))) htx hv)
  | @dynamic r sub node p segs above hn hc _ ih =>
    cases htx with
    | dynamic _ v htx =>
      have hpv := hv _ (List.mem_cons_self ..)
      rw [List.map_cons]
      refine .dynamic hn hc (utf8_nonempty hpv.2.1) (slash_utf8 hpv.2.2) (fun s hss => ?_) (fromUtf8_utf8 _) hpv.1
        (ih (ht.dynamic hn hc) (hs.child (.dynamic hn hc (.here _))) htx fun pv h => hv pv (by simp [h]))
      exact rejects_prefix (ht _ _ _ (.here _) _ _ hn _ hss) ((hs.shapely _ _ _ (.here _)).lt (by rw [hss]; simp))
        (fromUtf8_utf8 _) hpv.1

/-- **C15, guarded configurations.** If moreover all actions are declared on open routes, as the first of their block for their verb,
then `to_path` and `match_route` are inverse. -/
theorem C15_guarded (h : Supported r body) (hp : PlainTexts r) (hn : NoBraces r) {root : FlattenedModule}
    (hroot : modulesRoot r = some root)
    (hnd : ∀ segs query res, Declares r segs query res → res.isRedirect = false → ((routeParams segs).map Param.name).Nodup)
    (ht : Guarded W r)
    (hw : ∀ segs query res, Declares r segs query res → res.isRedirect = false →
        ∃ above node before after, Open r segs above node ∧ node.resources = before ++ res :: after ∧
          ∀ o ∈ before, o.method ≠ res.method) (display : W.V → Str) : RoundTrip W display body root := by
  have hs := h.sound hp
  have hda := distinctActions_of hroot
  intro mods a ha caps texts htx hv
  obtain ⟨segs, query, res, hd, hred, rfl, rfl⟩ := (C24_actions hroot _ _).1 ha
  refine ⟨_, C15_to_path hn hroot ha htx (hnd _ _ _ hd hred), ?_⟩
  obtain ⟨above, node, before, after, h1, h2, h3⟩ := hw _ _ _ hd hred
  exact (C15_exact_path h hp hda hd hred htx fun pv hpv => (hv pv hpv).2).2
    ⟨above, node, before, after, h1.texts_follow ht hs htx hv, h2, h3⟩

instance (r : Routes) : Decidable (AllOpen r) := by unfold AllOpen; infer_instance

/-- The pairs of types of parameters and static siblings that `Guarded` is about, in one block. -/
def rivalsIn (ns : List NestedRoutes) : List (Str × Str) :=
  match staticTexts ns with
  | [s] => ns.filterMap fun n => match n.pathSegment with
    | .static _ => none
    | .dynamic p => some (p.typ, s)
  | _ => []

/-- `Guarded` is a condition on finitely many pairs of a type and a static text. -/
theorem guarded_iff : Guarded W r ↔ ∀ x ∈ (walks opens r).flatMap fun x => rivalsIn x.2.2.routes, Rejects W x.1 x.2 := by
  simp only [List.mem_flatMap]
  constructor
  · rintro h ⟨typ, s⟩ ⟨⟨segs, above, node⟩, hx, hr⟩
    unfold rivalsIn at hr
    split at hr
    · rename_i s' hs
      obtain ⟨⟨seg, sub⟩, hn, he⟩ := List.mem_filterMap.1 hr
      cases seg with
      | static _ => cases he
      | dynamic p => cases he; exact h _ _ _ (open_iff.2 hx) p sub hn _ hs
    · cases hr
  · intro h segs above node ho p sub hn s hs
    refine h (p.typ, s) ⟨_, open_iff.1 ho, ?_⟩
    simp only [rivalsIn, hs]
    exact List.mem_filterMap.2 ⟨_, hn, rfl⟩

end Wayfinder
