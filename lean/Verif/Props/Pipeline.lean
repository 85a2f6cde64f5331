import Verif.Proofs.Pipeline
import Verif.Props.Accept
import Verif.Props.Build
import Verif.Props.Exact
import Verif.Props.Grammar
import Verif.Props.Doc
import Verif.Props.RoundTrip
/-!
# C50: from the route file to the answers of the compiled program

The properties of the parser (C46), the generator (C20, C47), the build helper (C37) and the text of the emitted
file (C42, C49) put together.
-/

namespace Wayfinder
open Rust

/-- A call of `match_route` of a file given by its bytes. -/
def callFile (W : World) (headers : List Tok) (file path verb : Bytes) : Outcome W :=
  match fromUtf8 file with
  | none => .rejected
  | some text => callText W headers text path verb

/-- rustc accepts the file. -/
def AcceptedFile (headers : List Tok) (file : Bytes) : Prop :=
  ∃ text m b, fromUtf8 file = some text ∧ readText headers text = some (m, b)

/-- What a program for the routes `r` answers to a request. -/
inductive Answers (W : World) (r : Routes) (path verb : Bytes) : Outcome W → Prop where
  /-- the pieces arrive at a block with a resource for the verb: the first one answers, with the values on the way
  and the names in the case of Rust -/
  | matched {segs above caps node rest before res after o} :
      Arrives W r segs above caps (cut (stripSlash path)) node rest → Finished rest →
      node.resources = before ++ res :: after → verb = verbBytes res.method → (∀ x ∈ before, x.method ≠ res.method) →
      o.isMatch res.isRedirect (RouteVal.inRust (matchOf res caps (above ++ node.queryParameters))) →
      Answers W r path verb o
  /-- … with resources for other verbs only -/
  | notAllowed {segs above caps node rest} :
      Arrives W r segs above caps (cut (stripSlash path)) node rest → Finished rest →
      node.resources ≠ [] → (∀ res ∈ node.resources, verbBytes res.method ≠ verb) →
      Answers W r path verb .notAllowed
  /-- a parameter takes the next piece and `FromStr` fails -/
  | error {segs above caps node p sub part more text e} :
      Arrives W r segs above caps (cut (stripSlash path)) node (part :: more) → Takes node p sub part more →
      fromUtf8 part = some text → W.parse p.typ text = .error e → Answers W r path verb (.err p.name e)
  /-- a parameter takes a piece that is not UTF-8 -/
  | notUtf8 {segs above caps node p sub part more} :
      Arrives W r segs above caps (cut (stripSlash path)) node (part :: more) → Takes node p sub part more →
      fromUtf8 part = none → Answers W r path verb .panic
  /-- the program indexes past the end of the path -/
  | cliff {segs above caps node} :
      Arrives W r segs above caps (cut (stripSlash path)) node [[]] → Cliff node → Answers W r path verb .panic
  /-- nothing of the above -/
  | notFound :
      (∀ segs above caps node rest, Arrives W r segs above caps (cut (stripSlash path)) node rest →
        ¬ (Finished rest ∧ node.resources ≠ []) ∧ ¬ (rest = [[]] ∧ Cliff node) ∧
        ∀ part more p sub, rest = part :: more → Takes node p sub part more →
          ∃ text v, fromUtf8 part = some text ∧ W.parse p.typ text = .ok v) →
      Answers W r path verb .notFound

theorem inRust_match {W : World} {o o' : Outcome W} {red : Bool} {v : RouteVal W} (h : o.isMatch red v)
    (h' : o'.isMatch red (RouteVal.inRust v)) : Outcome.inRust o = o' := by
  simp only [Outcome.isMatch] at h h'
  subst h h'
  cases red <;> rfl

theorem match_inRust {W : World} {o : Outcome W} {red : Bool} {v : RouteVal W} (h : o.isMatch red v) :
    (Outcome.inRust o).isMatch red (RouteVal.inRust v) := by
  simp only [Outcome.isMatch] at h ⊢
  subst h
  cases red <;> rfl

theorem not_rejected {W : World} {r : Routes} {body : List Stmt} (h : Supported r body) (hp : PlainTexts r)
    (path verb : Bytes) : callMatchRoute W body path verb ≠ .rejected := by
  rw [call_go h]
  have hs := h.sound hp
  have hc : Clear (cut (stripSlash path)) := cut_slash _
  intro hv
  cases exactly_all W r hs _ hc with
  | answered h1 h2 h3 =>
    rw [go_answered h1 hs hc h2 h3] at hv
    simp only [answer] at hv
    split at hv
    · cases hv
    · split at hv <;> cases hv
  | fails h1 h2 h3 h4 => rw [go_fails h1 hs hc h2 h3 h4] at hv; cases hv
  | badText h1 h2 h3 => rw [go_badText h1 hs hc h2 h3] at hv; cases hv
  | cliff h1 h2 => rw [go_atCliff h1 hs hc h2] at hv; cases hv
  | notFound h1 => rw [h1] at hv; cases hv

theorem call_answers {W : World} {r : Routes} {body : List Stmt} (h : Supported r body) (hp : PlainTexts r)
    (path verb : Bytes) (o : Outcome W) :
    (Outcome.inRust (callMatchRoute W body path verb)) = o ↔ Answers W r path verb o := by
  have hex : Answers W r path verb (Outcome.inRust (callMatchRoute W body path verb)) := by
    have hm : ∀ red v, (callMatchRoute W body path verb).isMatch red v →
        Answers W r path verb (Outcome.inRust (callMatchRoute W body path verb)) := by
      intro red v hv
      obtain ⟨segs, above, caps, node, rest, before, res, after, h1, h2, h3, h4, h5, rfl, rfl⟩ :=
        (C47_match h hp path verb red v).1 hv
      exact .matched h1 h2 h3 h4 h5 (match_inRust hv)
    cases e : callMatchRoute W body path verb with
    | route v => rw [← e]; exact hm false v e
    | redirect v => rw [← e]; exact hm true v e
    | notFound => exact .notFound ((C47_not_found h hp path verb).1 e)
    | notAllowed =>
      obtain ⟨_, _, _, _, _, h1, h2, h3, h4⟩ := (C47_not_allowed h hp path verb).1 e
      exact .notAllowed h1 h2 h3 h4
    | err x er =>
      obtain ⟨_, _, _, _, _, _, _, _, _, h1, h2, h3, h4, rfl⟩ := (C47_error h hp path verb x er).1 e
      exact .error h1 h2 h3 h4
    | panic =>
      obtain ⟨_, _, _, _, _, _, h1, ⟨_, _, h2, h3⟩ | ⟨rfl, rfl, h2⟩⟩ := (C47_panic h hp path verb).1 e
      · exact .notUtf8 h1 h2 h3
      · exact .cliff h1 h2
    | rejected => exact absurd e (not_rejected h hp path verb)
  constructor
  · rintro rfl; exact hex
  · intro ha
    cases ha with
    | matched h1 h2 h3 h4 h5 h6 =>
      exact inRust_match ((C47_match h hp path verb _ _).2 ⟨_, _, _, _, _, _, _, _, h1, h2, h3, h4, h5, rfl, rfl⟩) h6
    | notAllowed h1 h2 h3 h4 => rw [(C47_not_allowed h hp path verb).2 ⟨_, _, _, _, _, h1, h2, h3, h4⟩]; rfl
    | error h1 h2 h3 h4 => rw [(C47_error h hp path verb _ _).2 ⟨_, _, _, _, _, _, _, _, _, h1, h2, h3, h4, rfl⟩]; rfl
    | notUtf8 h1 h2 h3 => rw [(C47_panic h hp path verb).2 ⟨_, _, _, _, _, _, h1, .inl ⟨_, _, h2, h3⟩⟩]; rfl
    | cliff h1 h2 => rw [(C47_panic h hp path verb).2 ⟨_, _, _, _, _, _, h1, .inr ⟨rfl, rfl, h2⟩⟩]; rfl
    | notFound h1 => rw [(C47_not_found h hp path verb).2 h1]; rfl

/-- What is assumed about the words of a route file beyond what the parser checks. -/
structure RustWords (c : RouteConfig) : Prop where
  /-- the copied headers are complete lines of Rust -/
  headers : HeadersRead c.headers
  /-- all names are names in Rust -/
  names : RustNames c.routes

/-- **C50.** If the build returns, the input exists and is a text of the grammar, and for the configuration it
denotes: the bytes written are accepted by rustc exactly under the conditions of C49, and then, unless a parameter is
named `len`, or `start` with a parameter behind it, the compiled `match_route` answers every request with the one answer that
the configuration prescribes, where the path parameters have the types of the fields for which they are used. -/
theorem C50_pipeline (w : Machine) (hw : w.Sound) {b : Builder} {name : Str} (hb : b.source = some (.file name))
    (h : (b.build w).ending = .returned) :
    ∃ contents c, w.read (b.inputPath w name) = some contents ∧ FileText w.cfg c contents ∧
      (RustWords c →
        (StartTypes c.routes → (AcceptedFile (headerToks c.headers) (b.build w).written ↔
          Shapely c.routes ∧ ParamsUsed c.routes ∧ ClearNames c.routes ∧ FreeParams c.routes ∧
            RedirectsFit c.routes ∧ ∃ τ, Typed c.routes τ ∧ NamesOk (c.routes.retype τ))) ∧
        (Hygienic c.routes → (AcceptedFile (headerToks c.headers) (b.build w).written ↔
          Shapely c.routes ∧ ParamsUsed c.routes ∧ NamesOk c.routes ∧ ClearNames c.routes ∧ FreeParams c.routes ∧
            RedirectsFit c.routes ∧ OneType c.routes)) ∧
        (AcceptedFile (headerToks c.headers) (b.build w).written → Hygienic c.routes → (∃ τ, Typed c.routes τ) ∧
          ∀ τ, Typed c.routes τ → ∀ (W : World) (path verb : Bytes) (o : Outcome W),
            callFile W (headerToks c.headers) (b.build w).written path verb = o ↔ Answers W (c.routes.retype τ) path verb o)) := by
  obtain ⟨c, hl, -, hd, -, hwr⟩ := (C37_success w hw b).1 h
  cases hl with
  | config he => rw [hb] at he; cases he
  | file he hr hp =>
    rw [hb] at he
    cases he
    refine ⟨_, c, hr, (C46_grammar _ _ _).1 ⟨_, hp⟩, fun hn => ?_⟩
    have hwc := (C29_written _ hp).2
    have ready : Ready c :=
      ⟨(C20_exact c).2 hd, hn.headers, hwc.words hn.names, hwc.noBraces⟩
    have hu : fromUtf8 (b.build w).written = some (codegen c).text := by rw [hwr]; exact fromUtf8_utf8 _
    have hacc : AcceptedFile (headerToks c.headers) (b.build w).written ↔
        ∃ m b, readText (headerToks c.headers) (codegen c).text = some (m, b) := by
      constructor
      · rintro ⟨t, m, b', h1, h2⟩
        rw [hu] at h1; cases h1
        exact ⟨m, b', h2⟩
      · rintro ⟨m, b', h2⟩
        exact ⟨_, m, b', hu, h2⟩
    refine ⟨fun hst => hacc.trans (C49_accepted ready hst), fun hhy => hacc.trans (C49_hygienic ready hhy), fun ha hhy => ?_⟩
    obtain ⟨m, b', e⟩ := hacc.1 ha
    refine ⟨(C49_typed _).2 ((C49_hygienic ready hhy).1 ⟨m, b', e⟩).2.2.2.2.2.2, fun τ ht W path verb o => ?_⟩
    obtain ⟨body, _, _, hs, hcall⟩ := C49_meaning ready e ht
    simp only [callFile, hu, hcall]
    exact call_answers (hs hhy) (plainTexts_retype hwc.plain) path verb o

/-- In an accepted file, the names in the case of Rust determine the action. -/
theorem caps_action_inj {r : Routes} (h : ClearNames r) {mods mods' : List Str} {x y : Str} {p q p' q' : List Param}
    (h1 : Action r mods x p q) (h2 : Action r mods' y p' q') (hm : mods.map toCapsCase = mods'.map toCapsCase)
    (hx : toCapsCase x = toCapsCase y) : mods = mods' ∧ x = y := by
  have key : ∀ (pre l l' : List Str), mods = pre ++ l → mods' = pre ++ l' → l.map toCapsCase = l'.map toCapsCase → l = l' := by
    intro pre l
    induction l generalizing pre with
    | nil => intro l' _ _ he; simpa using he.symm
    | cons a l ih =>
      intro l' e1 e2 he
      cases l' with
      | nil => simp at he
      | cons b l' =>
        simp only [List.map_cons, List.cons.injEq] at he
        have : a = b := h.submodules (mods := pre) ⟨l, x, p, q, by rw [← e1]; exact h1⟩ ⟨l', y, p', q', by rw [← e2]; exact h2⟩
          (.inr he.1)
        subst this
        rw [ih (pre ++ [a]) l' (by simp [e1]) (by simp [e2]) he.2]
  obtain rfl : mods = mods' := key [] mods mods' rfl rfl hm
  exact ⟨rfl, h.actions h1 h2 hx⟩

theorem typed_segs_aux {r : Routes} {τ : Typing} {res : Resource} : ∀ (segs pre : List PathSegment),
    (∀ p ∈ routeParams (retypeSegs τ pre segs), ∀ t, FieldType r res p.name t → p.typ = t) →
    (∀ p ∈ routeParams segs, FieldType r res p.name p.typ) → retypeSegs τ pre segs = segs
  | [], _, _, _ => rfl
  | .static s :: segs, pre, h1, h2 => by
    have h1 : ∀ p ∈ routeParams (retypeSegs τ (pre ++ [.static s]) segs), ∀ t, FieldType r res p.name t → p.typ = t := h1
    have h2 : ∀ p ∈ routeParams segs, FieldType r res p.name p.typ := h2
    rw [retypeSegs, typed_segs_aux segs _ h1 h2]
    rfl
  | .dynamic p :: segs, pre, h1, h2 => by
    have e1 : routeParams (retypeSegs τ pre (.dynamic p :: segs)) =
      ⟨p.name, τ pre p⟩ :: routeParams (retypeSegs τ (pre ++ [.dynamic p]) segs) := rfl
    have e2 : routeParams (.dynamic p :: segs) = p :: routeParams segs := rfl
    rw [e1] at h1
    rw [e2] at h2
    have e3 : τ pre p = p.typ := h1 _ (List.mem_cons_self ..) _ (h2 _ (List.mem_cons_self ..))
    rw [retypeSegs, typed_segs_aux segs _ (fun q hq => h1 q (List.mem_cons_of_mem _ hq)) fun q hq => h2 q (List.mem_cons_of_mem _ hq),
      PathSegment.retype, e3]

/-- On the route of an action the types of the fields are those of the configuration. -/
theorem typed_segs {r : Routes} {τ : Typing} (ht : Typed r τ) {segs : List PathSegment} {query : List Param} {res : Resource}
    (he : Emitted r segs query res) (hred : res.isRedirect = false) : retypeSegs τ [] segs = segs :=
  typed_segs_aux segs [] (ht _ _ _ he) fun _ hp =>
    ⟨res.modules, res.name, _, _, ⟨_, _, res, emitted_declares he, hred, rfl, rfl, rfl, rfl⟩, ⟨rfl, rfl, rfl⟩, hp⟩

/-- `to_path` of a file that is accepted. -/
theorem toPath_read {c : RouteConfig} (h : Ready c) {m : Mod} {b : List Stmt}
    (e : readText (headerToks c.headers) (codegen c).text = some (m, b)) {segs : List PathSegment} {query : List Param} {res : Resource}
    (hd : Declares c.routes segs query res) (hred : res.isRedirect = false) {W : World} {display : W.V → Str} {caps : Caps W}
    {texts : List Str} (ht : Texts display segs caps texts) :
    callToPath display (headerToks c.headers) (codegen c).text (res.modules.map toSnakeCase) (toCapsCase res.name)
      (caps.map fun pv => (pv.1.name, pv.2)) = some (c!"/" ++ List.intercalate c!"/" texts) := by
  obtain ⟨root, body, hr, hb, -⟩ := codegen_text h.generated
  obtain ⟨-, rfl, hok, -, -⟩ := readText_some h.legible hr hb e
  have ha := (C24_actions hr res.modules _).2 ⟨segs, query, res, hd, hred, rfl, rfl⟩
  obtain ⟨sub, h1, h2, h3, h4, h5⟩ := struct_found (modGood_of hok) ha
  have hf := h1.fields _ h2
  have := C15_to_path h.braces hr ha ht (by
    simp only [List.map_append] at hf
    exact (List.nodup_append.1 hf).1)
  simp only [callToPath, e, Option.bind_eq_bind, Option.bind_some]
  rw [show res.modules.map toSnakeCase = snakes res.modules from rfl, h3]
  simp only [Option.bind_some, h4]
  simp only [FlattenedAction.toPath] at this
  simp only [structOf]
  revert this
  generalize literal _ = l
  generalize argTexts _ _ _ _ = a
  cases l <;> cases a <;> simp

/-- A route with the chosen types, for an action, is the route with its own types. -/
theorem emitted_action {r : Routes} {τ : Typing} (ht : Typed r τ) {segs : List PathSegment} {query : List Param} {res : Resource}
    (he : Emitted (r.retype τ) segs query res) (hred : res.isRedirect = false) : Emitted r segs query res := by
  obtain ⟨segs0, h1, rfl⟩ := emitted_retype he
  rwa [typed_segs ht h1 hred]

/-- Values for the same parameters, with distinct names, are the same if the fields are the same up to their order. -/
theorem caps_perm {W : World} : ∀ {caps caps' : Caps W}, caps.map Prod.fst = caps'.map Prod.fst →
    ((caps.map Prod.fst).map Param.name).Nodup →
    (caps'.map fun pv => (pv.1.name, Val.user (W := W) pv.2)).Perm (caps.map fun pv => (pv.1.name, Val.user (W := W) pv.2)) → caps' = caps
  | [], [], _, _, _ => rfl
  | [], _ :: _, h, _, _ => by simp at h
  | _ :: _, [], h, _, _ => by simp at h
  | (p, v) :: caps, (p', v') :: caps', h, hn, hp => by
    simp only [List.map_cons, List.cons.injEq] at h hn hp
    obtain ⟨rfl, h⟩ := h
    have hnot := (List.nodup_cons.1 hn).1
    have hm := hp.subset (List.mem_cons_self ..)
    have : v' = v := by
      rcases List.mem_cons.1 hm with h1 | h1
      · simpa using h1
      · exfalso
        apply hnot
        obtain ⟨pv, h2, h3⟩ := List.mem_map.1 h1
        rw [List.map_map, List.mem_map]
        exact ⟨pv, h2, by simpa using (Prod.ext_iff.1 h3).1⟩
    subst this
    rw [caps_perm h (List.nodup_cons.1 hn).2 (List.perm_cons _ |>.1 hp)]

/-- What it says about a path made of the texts of an action that the answer is this action with these values. -/
theorem lands {r : Routes} {τ : Typing} {body : List Stmt} (hs : Supported (r.retype τ) body) (hp : PlainTexts r) (hds : DistinctSiblings r)
    (hda : DistinctActions r) (hn : ClearNames r) (hτ : Typed r τ) {segs : List PathSegment} {query : List Param} {res : Resource}
    (hd : Declares r segs query res) (hred : res.isRedirect = false) {W : World} {display : W.V → Str} {caps : Caps W} {texts : List Str}
    (ht : Texts display segs caps texts) (hv : ∀ pv ∈ caps, display pv.2 ≠ [] ∧ '/' ∉ display pv.2) (verb : Bytes) (v : RouteVal W)
    (hm : v.modules.map toCapsCase = res.modules.map toCapsCase) (hx : toCapsCase v.name = toCapsCase res.name)
    (hps : v.params.Perm (matchOf res caps query).params) :
    callMatchRoute W body (utf8 (c!"/" ++ List.intercalate c!"/" texts)) verb = .route v ↔
      v = matchOf res caps query ∧ verb = verbBytes res.method ∧
        ∃ above node before after, Follows W (r.retype τ) segs above caps (texts.map utf8) node ∧
          node.resources = before ++ res :: after ∧ ∀ o ∈ before, o.method ≠ res.method := by
  have hp' := plainTexts_retype (τ := τ) hp
  have hroute : ∀ t ∈ texts, t ≠ [] ∧ '/' ∉ t := by
    intro t h1
    rcases ht.mem t h1 with h2 | ⟨pv, h2, rfl⟩
    · obtain ⟨node, above, h3, -, -⟩ := hd
      exact hp _ _ _ h3 t h2
    · exact hv pv h2
  have hparts : ∀ p ∈ texts.map utf8, p ≠ [] ∧ slash ∉ p := by
    intro p hm
    obtain ⟨t, h1, rfl⟩ := List.mem_map.1 hm
    exact ⟨utf8_nonempty (hroute t h1).1, slash_utf8 (hroute t h1).2⟩
  have hspell : Spells (texts.map utf8) (stripSlash (utf8 (c!"/" ++ List.intercalate c!"/" texts))) := by
    rw [stripSlash_path]; exact utf8_intercalate texts
  have act : Action r res.modules res.name _ _ := ⟨segs, query, res, hd, hred, rfl, rfl, rfl, rfl⟩
  constructor
  · intro h1
    obtain ⟨segs', above', caps', node', rest, before, res', after, a1, a2, a3, a4, a5, a6, rfl⟩ :=
      (C47_match hs hp' _ verb false _).1 h1
    have he := emitted_action hτ ⟨node', above', a1.live, by rw [a3]; simp, rfl⟩ a6.symm
    have act' : Action r res'.modules res'.name _ _ := ⟨segs', _, res', emitted_declares he, a6.symm, rfl, rfl, rfl, rfl⟩
    obtain ⟨e1, e2⟩ := caps_action_inj hn act act' hm.symm hx.symm
    obtain ⟨rfl, rfl, rfl⟩ := declares_same hds hda hd (emitted_declares he) hred a6.symm e1 e2
    obtain ⟨tail, htail⟩ := cut_spells (fun p hm => (hparts p hm).2) hspell
    have hf := a1.follows_pieces htail (by simp [ht.length]) hparts
    have hnd : ((routeParams segs).map Param.name).Nodup := by
      have := hn.fields act
      simp only [List.map_append] at this
      exact (List.nodup_append.1 this).1
    have hcaps : caps' = caps := caps_perm (by rw [← texts_caps ht, hf.caps]) (by rw [← texts_caps ht]; exact hnd) hps
    subst hcaps
    exact ⟨rfl, a4, above', node', before, after, hf, a3, a5⟩
  · rintro ⟨rfl, rfl, above, node, before, after, hf, h3, h5⟩
    have := C02_follows hs hp' hf h3 h5 hspell
    rw [hred] at this
    have he := emitted_action hτ ⟨node, above, hf.live, by rw [h3]; simp, rfl⟩ hred
    obtain ⟨-, rfl, -⟩ := declares_same hds hda hd (emitted_declares he) hred hred rfl rfl
    exact this

/-- **C50, round trip.** Let a file accepted by rustc be emitted for a configuration with plain texts, and `res` be one
of its actions.  `to_path` in this file, called on the struct of the action with values whose texts are not empty and have
no `/`, returns a path, and `match_route` in this file answers it with the same struct **exactly if** the texts follow the
route of the action, where parameters in front of which a redirect is declared have the type of its target, and the
action is the first one of its block for its verb. -/
theorem C50_roundtrip {c : RouteConfig} (h : Ready c) (hhy : Hygienic c.routes) (hp : PlainTexts c.routes) {m : Mod} {b : List Stmt}
    (e : readText (headerToks c.headers) (codegen c).text = some (m, b)) {τ : Typing} (hτ : Typed c.routes τ) {segs : List PathSegment}
    {query : List Param} {res : Resource} (hd : Declares c.routes segs query res) (hred : res.isRedirect = false)
    {W : World} {display : W.V → Str} {caps : Caps W} {texts : List Str} (ht : Texts display segs caps texts)
    (hv : ∀ pv ∈ caps, display pv.2 ≠ [] ∧ '/' ∉ display pv.2) :
    ∃ path, callToPath display (headerToks c.headers) (codegen c).text (res.modules.map toSnakeCase)
        (toCapsCase res.name) (caps.map fun pv => (pv.1.name, pv.2)) = some path ∧
      (callText W (headerToks c.headers) (codegen c).text (utf8 path) (verbBytes res.method) =
          .route (RouteVal.inRust (matchOf res caps query)) ↔
        ∃ above node before after, Follows W (c.routes.retype τ) segs above caps (texts.map utf8) node ∧
          node.resources = before ++ res :: after ∧ ∀ o ∈ before, o.method ≠ res.method) := by
  refine ⟨_, toPath_read h e hd hred ht, ?_⟩
  obtain ⟨root, body', hr, hb, -⟩ := codegen_text h.generated
  obtain ⟨-, -, hok, -, -⟩ := readText_some h.legible hr hb e
  have hn : ClearNames c.routes := (ok_iff_clear hr h.braces).1 hok
  obtain ⟨body, _, _, hs, hcall⟩ := C49_meaning h e hτ
  have hs := hs hhy
  rw [hcall]
  have hds : DistinctSiblings c.routes := by
    by_contra hh
    have h1 := matcherBody_error hh
    rw [hb] at h1
    cases h1
  have key := lands (W := W) hs hp hds (distinctActions_of hr) hn hτ hd hred ht hv (verbBytes res.method)
  constructor
  · intro h1
    obtain ⟨v, h2, h3⟩ := isMatch_inRust (red := false) h1
    have h4 : (RouteVal.inRust (matchOf res caps query)).params = (RouteVal.inRust v).params := congrArg RouteVal.params h3
    have h4 : (matchOf res caps query).params = v.params := h4
    exact ((key v (congrArg RouteVal.modules h3).symm (congrArg RouteVal.name h3).symm (h4 ▸ .refl _)).1 h2).2.2
  · intro h1
    exact inRust_isMatch (red := false) ((key _ rfl rfl (.refl _)).2 ⟨rfl, rfl, h1⟩)

/-! ## A case -/

theorem _root_.Wayfinder.Rust.Words.rustNames {r : Routes} (h : Words r) : RustNames r where
  segs hr p hs := ⟨(h.segs hr _ hs : Name p.name).2, (h.types hr p hs).2⟩
  query hr p hp := ⟨(h.query hr p hp).1.2, (h.query hr p hp).2.2⟩
  resources hr x hx :=
    have h1 := h.resources hr x hx
    ⟨fun m hm => ⟨(h1.1 m hm).1.2, (capsIn_name.1 (h1.1 m hm).2).2⟩, (capsIn_name.1 h1.2.1).2, fun p hp => ⟨(h1.2.2 p hp).1.2, (h1.2.2 p hp).2.2⟩⟩

/-- The machine of the examples with the route file of the people application. -/
def peopleMachine : Machine := { demoMachine none with read := fun p => if p = c!"in/people.routes" then some peopleText else none }

theorem peopleMachine_sound : peopleMachine.Sound := demoMachine_sound none

/-- The build returns, the words are words of Rust, and the file is accepted, so the answers of the compiled program are
the ones of `Answers`. -/
example : ((demoBuilder c!"people.routes").build peopleMachine).ending = .returned ∧
    RustWords ⟨[], Demo.people⟩ ∧ FileText peopleMachine.cfg ⟨[], Demo.people⟩ peopleText ∧
    AcceptedFile [] ((demoBuilder c!"people.routes").build peopleMachine).written := by
  have hret : ((demoBuilder c!"people.routes").build peopleMachine).ending = .returned := by decide +kernel
  have hf : FileText peopleMachine.cfg ⟨[], Demo.people⟩ peopleText := (C46_grammar _ _ _).1 ⟨_, people_parsed⟩
  have hc : Clean ⟨[], Demo.people⟩ := Rust.clean_of (by decide +kernel)
  have hw : RustWords ⟨[], Demo.people⟩ := ⟨hc.headers, hc.words.rustNames⟩
  refine ⟨hret, hw, hf, ?_⟩
  obtain ⟨contents, c, h1, h2, h3⟩ := C50_pipeline peopleMachine peopleMachine_sound (b := demoBuilder c!"people.routes") rfl hret
  have he : contents = peopleText := by
    have : peopleMachine.read ((demoBuilder c!"people.routes").inputPath peopleMachine c!"people.routes") = some peopleText := by
      decide +kernel
    rw [this] at h1; cases h1; rfl
  subst he
  have : c = ⟨[], Demo.people⟩ := by
    obtain ⟨_, e⟩ := (C46_grammar _ _ _).2 h2
    obtain ⟨_, e'⟩ := (C46_grammar _ _ _).2 hf
    rw [e] at e'; cases e'; rfl
  subst this
  have hhy : Hygienic Demo.people := Demo.people_supported.hygienic
  refine ((h3 hw).2.1 hhy).2 ?_
  have hr : Ready ⟨[], Demo.people⟩ := ⟨hc.generated, hc.headers, hc.words, hc.braces⟩
  obtain ⟨_, _, e⟩ := hc.read (c := ⟨[], Demo.people⟩) Demo.people_supported
  exact (C49_hygienic hr hhy).1 ⟨_, _, e⟩

end Wayfinder
