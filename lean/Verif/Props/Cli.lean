import Verif.Proofs.Cli
/-!
# C55: what the example program prints
-/

namespace Wayfinder
open Rust

variable {W : World}

theorem Arrives.caps {r node : Routes} {segs : List PathSegment} {above : List Param} {caps : Caps W}
    {pieces rest : List Bytes} (h : Arrives W r segs above caps pieces node rest) : routeParams segs = caps.map Prod.fst := by
  induction h with
  | here => rfl
  | static _ _ _ ih => simpa [routeParams] using ih
  | dynamic _ _ _ _ ih => rw [List.map_cons, ← ih]; rfl

theorem spelled_exists {V : Type} (display : V → Str) {vals : List (Str × V)} : ∀ segs : List PathSegment,
    (∀ p ∈ routeParams segs, p.name ∈ vals.map Prod.fst) → ∃ texts, Spelled display vals segs texts
  | [], _ => ⟨[], .nil⟩
  | .static s :: segs, h => by
    obtain ⟨texts, h1⟩ := spelled_exists display segs (by simpa [routeParams] using h)
    exact ⟨_, .static s h1⟩
  | .dynamic p :: segs, h => by
    have he : routeParams (.dynamic p :: segs) = p :: routeParams segs := rfl
    rw [he] at h
    obtain ⟨texts, h1⟩ := spelled_exists display segs fun q hq => h q (by simp [hq])
    obtain ⟨⟨x, v⟩, h2, h3⟩ := List.mem_map.1 (h p (by simp))
    simp only at h3
    exact ⟨_, .dynamic (by rw [← h3]; exact h2) h1⟩

theorem fieldTexts_exists {V : Type} (debug : V → Str) {vals : List (Str × V)} : ∀ ps : List Param,
    (∀ p ∈ ps, p.name ∈ vals.map Prod.fst) → ∃ texts, FieldTexts debug vals ps texts
  | [], _ => ⟨[], .nil⟩
  | p :: ps, h => by
    obtain ⟨texts, h1⟩ := fieldTexts_exists debug ps fun q hq => h q (by simp [hq])
    obtain ⟨⟨x, v⟩, h2, h3⟩ := List.mem_map.1 (h p (by simp))
    simp only at h3
    exact ⟨_, .cons (by rw [← h3]; exact h2) h1⟩

/-- A returned value is one of a declared action, with values for its parameters. -/
theorem shows_exists {r : Routes} (hn : ClearNames r) (hf : RedirectsFit r) {τ : Typing} (pr : Printer W)
    {segs' : List PathSegment} {above : List Param} {caps : Caps W} {pieces rest : List Bytes} {node : Routes} {res : Resource}
    (h : Arrives W (r.retype τ) segs' above caps pieces node rest) (hres : res ∈ node.resources) :
    ∃ text path, Shows pr r (RouteVal.inRust (matchOf res caps (above ++ node.queryParameters))) text path := by
  obtain ⟨segs, he, rfl⟩ := emitted_retype (τ := τ) ⟨node, above, h.live, hres, rfl⟩
  have hnames : (caps.map fun pv => (pv.1.name, pv.2)).map Prod.fst = (routeParams segs).map Param.name := by
    rw [← routeParams_retype (τ := τ) segs [], h.caps]
    simp [Function.comp_def]
  have key : ∀ {segs2 query2 res2}, Declares r segs2 query2 res2 → res2.isRedirect = false →
      res2.modules.map toCapsCase = res.modules.map toCapsCase → toCapsCase res2.name = toCapsCase res.name →
      ((routeParams segs).map Param.name).Perm ((routeParams segs2).map Param.name) →
      ∃ text path, Shows pr r (RouteVal.inRust (matchOf res caps (above ++ node.queryParameters))) text path := by
    intro segs2 query2 res2 hd hred h1 h2 hperm
    have hfn := hn.fields (mods := res2.modules) (x := res2.name) ⟨segs2, query2, res2, hd, hred, rfl, rfl, rfl, rfl⟩
    have hnd : ((routeParams segs2).map Param.name).Nodup := by
      simp only [List.map_append] at hfn
      exact (List.nodup_append.1 hfn).1
    have hin : ∀ p ∈ routeParams segs2, p.name ∈ (caps.map fun pv => (pv.1.name, pv.2)).map Prod.fst := by
      intro p hp
      rw [hnames]
      exact hperm.mem_iff.2 (List.mem_map_of_mem hp)
    obtain ⟨texts, h3⟩ := spelled_exists pr.display segs2 hin
    obtain ⟨fields, h4⟩ := fieldTexts_exists pr.debug (routeParams segs2) hin
    exact ⟨_, _, .mk hd hred (by simp [RouteVal.inRust, matchOf, h1]) (by simp [RouteVal.inRust, matchOf, h2])
      (by simp [RouteVal.inRust, matchOf]) (by rw [hnames]; exact hperm.nodup_iff.2 hnd) h3 h4⟩
  cases hi : res.isRedirect with
  | false => exact key (emitted_declares he) hi rfl rfl (.refl _)
  | true =>
    obtain ⟨mods, x, params, query, ⟨segs2, above2, res2, hd, hred, rfl, rfl, rfl, rfl⟩, hsame, h1, -⟩ := hf _ _ _ he hi
    exact key hd hred hsame.2.1 hsame.2.2 h1

/-- What a run of the program with the arguments `args` prints, and how it ends. -/
inductive Runs (pr : Printer W) (r answers : Routes) : List Bytes → Session → Prop where
  /-- `std::env::args()` panics on an argument that is not UTF-8 -/
  | notText {args a} : a ∈ args → fromUtf8 a = none → Runs pr r answers args ⟨[], [], .panicked⟩
  /-- not even the name of the program is given -/
  | noName : Runs pr r answers [] ⟨[], [], .panicked⟩
  /-- no path is given -/
  | usage {exe : Str} : Runs pr r answers [utf8 exe] ⟨[], c!"Usage: " ++ exe ++ c!" ROUTE_TO_TEST\n", .returned⟩
  /-- a path is given, further arguments are ignored: `match_route` is called for this path and `GET` -/
  | test {exe path : Bytes} {more : List Bytes} {o : Outcome W} {s : Session} : (∀ a ∈ exe :: path :: more, fromUtf8 a ≠ none) →
      Answers W answers path (verbBytes .get) o → Reports pr r o s → Runs pr r answers (exe :: path :: more) s

theorem mapM_none {args : List Bytes} : args.mapM fromUtf8 = none ↔ ∃ a ∈ args, fromUtf8 a = none := by
  induction args with
  | nil => simp
  | cons a args ih =>
    cases h1 : fromUtf8 a with
    | none => simp [h1]
    | some t =>
      cases h2 : args.mapM fromUtf8 with
      | none => rw [h2] at ih; simp [h1, h2, ih.1 rfl]
      | some ts => rw [h2] at ih; simp [h1, h2] at ih ⊢; exact ih

theorem reports_unique {c : RouteConfig} (hbr : NoBraces c.routes) {root : FlattenedModule} (hr : modulesRoot c.routes = some root)
    (hg : ModGood root) {pr : Printer W} {o : Outcome W} {s : Session} (h : Reports pr c.routes o s) :
    (o = .panic ∧ s = .panics) ∨ (o ≠ .panic ∧ ∃ a b, debugResult pr (modOf root) o = some a ∧ resultLine pr (modOf root) o = some b ∧
      s = .lines (c!"Parsed: " ++ a) b) := by
  cases h with
  | notFound => exact .inr ⟨by simp, _, _, rfl, rfl, rfl⟩
  | notAllowed => exact .inr ⟨by simp, _, _, rfl, rfl, rfl⟩
  | route h =>
    obtain ⟨h1, h2⟩ := shows_sound hbr hr hg h
    exact .inr ⟨by simp, _, _, by simp only [debugResult, h1]; rfl, by simp only [resultLine, h2]; rfl, rfl⟩
  | redirect h =>
    obtain ⟨h1, h2⟩ := shows_sound hbr hr hg h
    exact .inr ⟨by simp, _, _, by simp only [debugResult, h1]; rfl, by simp only [resultLine, h2]; rfl, rfl⟩
  | error => exact .inr ⟨by simp, _, _, rfl, rfl, rfl⟩
  | panic => exact .inl ⟨rfl, rfl⟩

theorem cliTest_of {c : RouteConfig} (hbr : NoBraces c.routes) {root : FlattenedModule} (hr : modulesRoot c.routes = some root)
    (hg : ModGood root) {pr : Printer W} {b : List Stmt} {path : Str} {s : Session}
    (h : Reports pr c.routes (callMatchRoute W b (utf8 path) (verbBytes .get)) s) :
    cliTest pr (modOf root) b path = some s := by
  have he : callMatchRoute W b (encode path) (bytesOf c!"GET") = callMatchRoute W b (utf8 path) (verbBytes .get) := rfl
  rcases reports_unique hbr hr hg h with ⟨h1, rfl⟩ | ⟨h1, x, y, h2, h3, rfl⟩
  · rw [cliTest, he, h1]
  · rw [cliTest, he]
    generalize callMatchRoute W b (utf8 path) (verbBytes .get) = o at h1 h2 h3
    cases o with
    | panic => exact absurd rfl h1
    | _ => simp only [h2, h3, Option.bind_eq_bind, Option.bind_some]; simp [Session.lines]

/-- **C55.** If the file emitted for a configuration is accepted, and no parameter is named `len`, or `start` with a
parameter behind it, then the example program around this file does exactly this for given arguments: it prints its usage, or the
answer that the configuration prescribes for the path and `GET`.  The answer is shown with the names of the modules and the
struct and with the values of all fields, and with the path of the action that is named.  In particular it
never fails to print an answer, except for the paths for which `match_route` panics. -/
theorem C55_session {c : RouteConfig} (h : Ready c) (hhy : Hygienic c.routes) (hp : PlainTexts c.routes) {m : Mod} {b : List Stmt}
    (e : readText (headerToks c.headers) (codegen c).text = some (m, b)) {τ : Typing} (ht : Typed c.routes τ) (pr : Printer W)
    (args : List Bytes) (s : Session) :
    cliMain pr (headerToks c.headers) (codegen c).text args = some s ↔ Runs pr c.routes (c.routes.retype τ) args s := by
  obtain ⟨root, body, hr, hb, -⟩ := codegen_text h.generated
  obtain ⟨-, hm, hok, -, -⟩ := readText_some h.legible hr hb e
  obtain ⟨-, -, -, -, -, hfit, -⟩ := retyped_meaning h.legible hr hb e ht
  have hg := modGood_of hok
  have hn : ClearNames c.routes := (ok_iff_clear hr h.braces).1 hok
  obtain ⟨body', -, -, hs, hcall⟩ := C49_meaning h e ht
  have hans : ∀ path o, callMatchRoute W b path (verbBytes .get) = o ↔ Answers W (c.routes.retype τ) path (verbBytes .get) o := by
    intro path o
    rw [← call_answers (hs hhy) (plainTexts_retype hp) path _ o, ← hcall W path (verbBytes .get), callText, e]
  have hrep : ∀ path, ∃ s, Reports pr c.routes (callMatchRoute W b path (verbBytes .get)) s := by
    intro path
    have hne := not_rejected (W := W) (hs hhy) (plainTexts_retype hp) path (verbBytes .get)
    have hc := hcall W path (verbBytes .get)
    simp only [callText, e] at hc
    cases ho : callMatchRoute W b path (verbBytes .get) with
    | notFound => exact ⟨_, .notFound⟩
    | notAllowed => exact ⟨_, .notAllowed⟩
    | err x e => exact ⟨_, .error⟩
    | panic => exact ⟨_, .panic⟩
    | rejected =>
      rw [ho] at hc
      cases h2 : callMatchRoute W body' path (verbBytes .get) <;> rw [h2] at hc <;> first | exact absurd h2 hne | cases hc
    | route v =>
      cases (hans path _).1 ho with
      | @matched segs above caps node rest before res after _ h1 h2 h3 h4 h5 h6 =>
        simp only [Outcome.isMatch] at h6
        obtain ⟨text, p, h7⟩ := shows_exists hn hfit pr h1 (res := res) (by rw [h3]; simp)
        cases hi : res.isRedirect <;> rw [hi] at h6 <;> cases h6
        exact ⟨_, .route h7⟩
    | redirect v =>
      cases (hans path _).1 ho with
      | @matched segs above caps node rest before res after _ h1 h2 h3 h4 h5 h6 =>
        simp only [Outcome.isMatch] at h6
        obtain ⟨text, p, h7⟩ := shows_exists hn hfit pr h1 (res := res) (by rw [h3]; simp)
        cases hi : res.isRedirect <;> rw [hi] at h6 <;> cases h6
        exact ⟨_, .redirect h7⟩
  subst hm
  have hmain : cliMain pr (headerToks c.headers) (codegen c).text args =
      match args.mapM fromUtf8 with
      | none => some .panics
      | some [] => some .panics
      | some [exe] => some ⟨[], c!"Usage: " ++ exe ++ c!" ROUTE_TO_TEST\n", .returned⟩
      | some (_ :: path :: _) => cliTest pr (modOf root) b path := by
    simp only [cliMain, e, Option.bind_eq_bind, Option.bind_some]
    rfl
  rw [hmain]
  clear hmain
  cases hargs : args.mapM fromUtf8 with
  | none =>
    obtain ⟨a, h1, h2⟩ := mapM_none.1 hargs
    constructor
    · rintro ⟨⟩; exact .notText h1 h2
    · intro hrun
      cases hrun with
      | notText => rfl
      | noName => rfl
      | usage =>
        obtain rfl := List.mem_singleton.1 h1
        rw [fromUtf8_utf8] at h2; cases h2
      | test h3 => exact absurd h2 (h3 a h1)
  | some texts =>
    have hall : ∀ a ∈ args, fromUtf8 a ≠ none := by
      intro a h1 h2
      rw [mapM_none.2 ⟨a, h1, h2⟩] at hargs
      cases hargs
    match args, texts, hargs with
    | [], texts, hargs =>
      cases hargs
      constructor
      · rintro ⟨⟩; exact .noName
      · intro hrun
        cases hrun with
        | notText h1 _ => cases h1
        | noName => rfl
    | [x], texts, hargs =>
      simp only [List.mapM_cons, List.mapM_nil, Option.bind_eq_bind, Option.bind_eq_some_iff, Option.pure_def] at hargs
      obtain ⟨exe, h1, _, ⟨⟩, ⟨⟩⟩ := hargs
      obtain rfl := utf8_of_fromUtf8 h1
      constructor
      · rintro ⟨⟩; exact .usage
      · intro hrun
        generalize hx : [utf8 exe] = args at hrun
        cases hrun with
        | notText h1 h2 => subst hx; exact absurd h2 (hall _ h1)
        | noName => cases hx
        | usage =>
          simp only [List.cons.injEq, and_true] at hx
          rw [utf8_inj hx]
        | test => cases hx
    | x :: y :: more, texts, hargs =>
      simp only [List.mapM_cons, Option.bind_eq_bind, Option.bind_eq_some_iff, Option.pure_def] at hargs
      obtain ⟨exe, h1, _, ⟨path, h2, rest, h3, ⟨⟩⟩, ⟨⟩⟩ := hargs
      obtain rfl := utf8_of_fromUtf8 h1
      obtain rfl := utf8_of_fromUtf8 h2
      obtain ⟨s', hs'⟩ := hrep (utf8 path)
      have hct := cliTest_of h.braces hr hg hs'
      simp only
      rw [hct]
      constructor
      · rintro ⟨⟩
        exact .test hall ((hans _ _).1 rfl) hs'
      · intro hrun
        generalize hx : utf8 exe :: utf8 path :: more = args at hrun
        cases hrun with
        | notText h1 h2 => subst hx; exact absurd h2 (hall _ h1)
        | noName => cases hx
        | usage => simp at hx
        | test _ h4 h5 =>
          simp only [List.cons.injEq] at hx
          obtain ⟨rfl, rfl, rfl⟩ := hx
          rw [← (hans _ _).2 h4] at h5
          rw [← hct, cliTest_of h.braces hr hg h5]

theorem texts_spelled {display : W.V → Str} {τ : Typing} {vals : List (Str × W.V)} : ∀ {segs pre : List PathSegment} {caps : Caps W}
    {texts : List Str}, Texts display (retypeSegs τ pre segs) caps texts → (∀ pv ∈ caps, (pv.1.name, pv.2) ∈ vals) →
      Spelled display vals segs texts
  | [], _, _, _, h, _ => by cases h; exact .nil
  | .static s :: segs, pre, caps, texts, h, hv => by
    cases h with
    | static _ h => exact .static s (texts_spelled h hv)
  | .dynamic p :: segs, pre, caps, texts, h, hv => by
    cases h with
    | dynamic _ v h => exact .dynamic (hv _ (List.mem_cons_self ..)) (texts_spelled h fun pv hpv => hv pv (by simp [hpv]))

theorem two_texts (x y : Str) : ∀ a ∈ [utf8 x, utf8 y], fromUtf8 a ≠ none := by
  intro a ha
  rcases List.mem_cons.1 ha with rfl | ha
  · rw [fromUtf8_utf8]; simp
  · rw [List.mem_singleton.1 ha, fromUtf8_utf8]; simp

theorem FieldTexts.mono {V : Type} {debug : V → Str} {vals vals' : List (Str × V)} {ps : List Param} {fields : List Str}
    (h : FieldTexts debug vals ps fields) (hsub : ∀ x ∈ vals, x ∈ vals') : FieldTexts debug vals' ps fields := by
  induction h with
  | nil => exact .nil
  | cons hv _ ih => exact .cons (hsub _ hv) ih

/-- **C55, again.** Let the program show a match for a path: a route or a redirect, with the struct of an action and its values.
If this action has the verb `GET`, is the first one of its block for it, and the texts of the values follow its route (so they
parse back to the values, and no step is taken over by a sibling), then the path that the program prints consists of these
texts, and the program, called with the printed path, shows a route with the same struct and values, and prints the
same path.  So following a redirect leads to a route, and a route is led to itself. -/
theorem C55_again {c : RouteConfig} (h : Ready c) (hhy : Hygienic c.routes) (hp : PlainTexts c.routes) {m : Mod} {b : List Stmt}
    (e : readText (headerToks c.headers) (codegen c).text = some (m, b)) {τ : Typing} (ht : Typed c.routes τ) (pr : Printer W)
    {path : Str} {red : Bool} {v : RouteVal W} {o : Outcome W} (ho : o.isMatch red v)
    (ha : Answers W (c.routes.retype τ) (utf8 path) (verbBytes .get) o)
    {segs : List PathSegment} {above : List Param} {caps : Caps W} {texts : List Str} {node : Routes} {before after : List Resource}
    {res : Resource} (htx : Texts pr.display segs caps texts)
    (hf : Follows W (c.routes.retype τ) segs above caps (texts.map utf8) node) (hres : node.resources = before ++ res :: after)
    (hget : res.method = .get) (hfirst : ∀ x ∈ before, x.method ≠ .get) (hred : res.isRedirect = false)
    (hm : v.modules = res.modules.map toCapsCase) (hx : v.name = toCapsCase res.name)
    (hv : ∀ pv ∈ caps, (pv.1.name, Val.user pv.2) ∈ v.params) (exe exe' : Str) :
    ∃ text word, word = (if red then c!"Redirect" else c!"Route") ∧
      cliMain pr (headerToks c.headers) (codegen c).text [utf8 exe, utf8 path] =
        some (.lines (c!"Parsed: Ok(Match::" ++ word ++ c!"(" ++ text ++ c!"))")
          (word ++ c!" to " ++ (c!"/" ++ List.intercalate c!"/" texts))) ∧
      cliMain pr (headerToks c.headers) (codegen c).text [utf8 exe', utf8 (c!"/" ++ List.intercalate c!"/" texts)] =
        some (.lines (c!"Parsed: Ok(Match::Route(" ++ text ++ c!"))")
          (c!"Route to " ++ (c!"/" ++ List.intercalate c!"/" texts))) := by
  obtain ⟨root, body, hr, hb, -⟩ := codegen_text h.generated
  obtain ⟨-, -, hok, -, -⟩ := readText_some h.legible hr hb e
  obtain ⟨-, -, -, -, -, hfit, -⟩ := retyped_meaning h.legible hr hb e ht
  have hn : ClearNames c.routes := (ok_iff_clear hr h.braces).1 hok
  obtain ⟨body', -, -, hs, -⟩ := C49_meaning h e ht
  -- the action in the configuration
  obtain ⟨segs0, he, rfl⟩ := emitted_retype (τ := τ) ⟨node, above, hf.live, (by rw [hres]; simp : res ∈ node.resources), rfl⟩
  have hd := emitted_declares he
  have hact := hn.fields (mods := res.modules) (x := res.name) ⟨segs0, _, res, hd, hred, rfl, rfl, rfl, rfl⟩
  have hnd : ((routeParams segs0).map Param.name).Nodup := by
    simp only [List.map_append] at hact
    exact (List.nodup_append.1 hact).1
  have hnames : (caps.map fun pv => (pv.1.name, pv.2)).map Prod.fst = (routeParams segs0).map Param.name := by
    rw [← routeParams_retype (τ := τ) segs0 [], hf.caps]
    simp [Function.comp_def]
  have hin : ∀ p ∈ routeParams segs0, p.name ∈ (caps.map fun pv => (pv.1.name, pv.2)).map Prod.fst := fun p hp => by
    rw [hnames]; exact List.mem_map_of_mem hp
  obtain ⟨fields, hft⟩ := fieldTexts_exists pr.debug (routeParams segs0) hin
  -- the answer to the first path
  obtain ⟨vals, hvals, hvn⟩ : ∃ vals : List (Str × W.V), v.params = vals.map (fun x => (x.1, .user x.2)) ∧ (vals.map Prod.fst).Nodup := by
    simp only [Outcome.isMatch] at ho
    have key : ∀ {segs1 above1 caps1 node1 rest1 before1 res1 after1},
        Arrives W (c.routes.retype τ) segs1 above1 caps1 (cut (stripSlash (utf8 path))) node1 rest1 →
        node1.resources = before1 ++ res1 :: after1 → o.isMatch res1.isRedirect (RouteVal.inRust (matchOf res1 caps1
          (above1 ++ node1.queryParameters))) →
        ∃ vals : List (Str × W.V), v.params = vals.map (fun x => (x.1, .user x.2)) ∧ (vals.map Prod.fst).Nodup := by
      intro segs1 above1 caps1 node1 rest1 before1 res1 after1 h1 h3 h6
      obtain ⟨text, p, h7⟩ := shows_exists hn hfit pr h1 (res := res1) (by rw [h3]; simp)
      have : v = RouteVal.inRust (matchOf res1 caps1 (above1 ++ node1.queryParameters)) := by
        simp only [Outcome.isMatch, ho] at h6
        cases red <;> cases hi : res1.isRedirect <;> rw [hi] at h6 <;> cases h6 <;> rfl
      rw [this]
      cases h7 with
      | mk _ _ _ _ a1 a2 => exact ⟨_, a1, a2⟩
    cases ha with
    | matched h1 h2 h3 h4 h5 h6 => exact key h1 h3 h6
    | _ => cases red <;> cases ho
  have hsub : ∀ x ∈ caps.map (fun pv => (pv.1.name, pv.2)), x ∈ vals := by
    intro x hx
    obtain ⟨pv, h1, rfl⟩ := List.mem_map.1 hx
    have := hv pv h1
    rw [hvals] at this
    obtain ⟨⟨y, w⟩, h2, h3⟩ := List.mem_map.1 this
    cases h3
    exact h2
  obtain ⟨text, hshow, hshow'⟩ : ∃ text, Shows pr c.routes v text (c!"/" ++ List.intercalate c!"/" texts) ∧
      Shows pr c.routes (RouteVal.inRust (matchOf res caps (above ++ node.queryParameters))) text
        (c!"/" ++ List.intercalate c!"/" texts) := by
    refine ⟨_, .mk hd hred hm hx hvals hvn
      (texts_spelled htx fun pv hpv => hsub _ (List.mem_map.2 ⟨pv, hpv, rfl⟩)) (hft.mono hsub), ?_⟩
    rw [hm, hx]
    exact .mk hd hred rfl rfl (vals := caps.map fun pv => (pv.1.name, pv.2)) (by simp [RouteVal.inRust, matchOf])
      (by rw [hnames]; exact hnd) (texts_spelled htx fun pv hpv => List.mem_map.2 ⟨pv, hpv, rfl⟩) hft
  refine ⟨text, _, rfl, (C55_session h hhy hp e ht pr _ _).2 (.test (two_texts _ _) ha ?_),
    (C55_session h hhy hp e ht pr _ _).2 (.test (two_texts _ _)
      ((call_answers (hs hhy) (plainTexts_retype hp) _ _ _).1 rfl) ?_)⟩
  · simp only [Outcome.isMatch] at ho
    subst ho
    cases red
    · exact .route hshow
    · exact .redirect hshow
  · have hcall := C02_follows (hs hhy) (plainTexts_retype hp) hf hres (by rw [hget]; exact hfirst)
      (path := utf8 (c!"/" ++ List.intercalate c!"/" texts)) (by rw [stripSlash_path]; exact utf8_intercalate texts)
    rw [hget] at hcall
    have := match_inRust hcall
    simp only [Outcome.isMatch, hred] at this
    rw [this]
    exact .route hshow'

end Wayfinder

namespace Wayfinder.Demo
open Rust

/-- How the values of the examples are printed. -/
def printer : Printer world where
  display := fun t : Str => t
  debug := fun t : Str => c!"\"" ++ t ++ c!"\""
  debugErr := fun e : Str => c!"<" ++ e ++ c!">"

/-- What is read from the file for a configuration. -/
def fileOf (r : Routes) : Mod × List Stmt :=
  (modOf (rootOf r), (elabBlock (modOf (rootOf r)) (eraseBlock (bodyOf r))).getD [])

theorem fileOf_read {r : Routes} (h : acceptedB r = true) :
    readText (headerToks (conf r).headers) (codegen (conf r)).text = some (fileOf r) := by
  obtain ⟨hready, m, b, e⟩ := accepted_of h
  simp only [acceptedB, Bool.and_eq_true] at h
  obtain ⟨⟨⟨⟨⟨h1, h2⟩, h3⟩, h4⟩, h5⟩, h6⟩ := h
  obtain ⟨root, hroot⟩ := Option.isSome_iff_exists.1 h2
  have hb : matcherBody r = .ok (bodyOf r) := by
    cases e : matcherBody r with
    | error _ => simp [e] at h3
    | ok b => simp [bodyOf, e]
  simp only [fileOf, rootOf, hroot, Option.getD_some] at h5 h6 ⊢
  cases e : elabBlock (modOf root) (eraseBlock (bodyOf r)) with
  | none => simp [e] at h6
  | some b =>
    simp only [e] at h6
    exact readText_eq (codegen_read (c := conf r) hready.generated hready.headers hready.words hroot hb |>.trans
      (if_pos h4)) e h5 h6

/-- The example program around the file for a configuration. -/
def runCli (r : Routes) (args : List Str) : Option Session :=
  cliMain printer (headerToks (conf r).headers) (codegen (conf r)).text (args.map utf8)

theorem runCli_test {r : Routes} (h : acceptedB r = true) (exe path : Str) :
    runCli r [exe, path] = cliTest printer (fileOf r).1 (fileOf r).2 path := by
  have h2 : [exe, path].map utf8 = [utf8 exe, utf8 path] := rfl
  have h3 : [utf8 exe, utf8 path].mapM fromUtf8 = some [exe, path] := by
    simp only [List.mapM_cons, List.mapM_nil, fromUtf8_utf8]
    rfl
  rw [runCli, cliMain, h2, fileOf_read h, h3]
  rfl

theorem people_accepted : acceptedB people = true := by decide +kernel

/-- The conditions of `C55_session` hold for the example with people. -/
theorem people_session (args : List Bytes) (s : Session) :
    cliMain printer (headerToks (conf people).headers) (codegen (conf people)).text args = some s ↔
      Runs printer people people args s := by
  obtain ⟨h1, m, b, e⟩ := accepted_of people_accepted
  obtain ⟨h2, h3⟩ := (C49_agreeing h1 people_clean.types).2 people_clean.names
  have := C55_session (W := world) h1 people_supported.hygienic people_plain e h2 printer args s
  rwa [show (conf people).routes.retype ownTypes = people from h3] at this

example : Runs printer people people [utf8 c!"cli", utf8 c!"/people/17/"]
    (.lines c!"Parsed: Ok(Match::Route(People(Show(Show { id: \"17\", lang: None, verbose: None }))))" c!"Route to /people/17") :=
  (people_session _ _).1 ((runCli_test people_accepted _ _).trans (by decide +kernel))

example : Runs printer people people [utf8 c!"cli", utf8 c!"/people/x"]
    (.lines c!"Parsed: Err(wayfinder::Error { param: \"id\", what: <invalid digit> })"
      c!"Error: Error parsing 'id' parameter <invalid digit>") :=
  (people_session _ _).1 ((runCli_test people_accepted _ _).trans (by decide +kernel))

example : Runs printer people people [utf8 c!"cli", utf8 c!"/old"]
    (.lines c!"Parsed: Ok(Match::Redirect(People(List(List { lang: None }))))" c!"Redirect to /people") :=
  (people_session _ _).1 ((runCli_test people_accepted _ _).trans (by decide +kernel))

/-- A case of `C55_again`: the path is printed without the separator at its end, and is shown in the same way. -/
example : ∃ text word, word = (if false then c!"Redirect" else c!"Route") ∧
    runCli people [c!"cli", c!"/people/17/"] =
      some (.lines (c!"Parsed: Ok(Match::" ++ word ++ c!"(" ++ text ++ c!"))") (word ++ c!" to " ++ c!"/people/17")) ∧
    runCli people [c!"cli", c!"/people/17"] =
      some (.lines (c!"Parsed: Ok(Match::Route(" ++ text ++ c!"))") (c!"Route to " ++ c!"/people/17")) := by
  obtain ⟨h1, m, b, e⟩ := accepted_of people_accepted
  obtain ⟨h2, h3⟩ := (C49_agreeing h1 people_clean.types).2 people_clean.names
  have h4 : (conf people).routes.retype ownTypes = people := h3
  have hf : Follows world people [.static c!"people", .dynamic ⟨c!"id", c!"u32"⟩] [⟨c!"lang", c!"String"⟩]
      [(⟨c!"id", c!"u32"⟩, c!"17")] ([c!"people", c!"17"].map utf8) _ :=
    .static (List.mem_cons_self ..) (.inl rfl) (.dynamic (text := c!"17") (List.mem_cons_self ..) rfl (by decide) (by decide)
      (fun s hs => by cases hs; decide) rfl rfl (.here _))
  have hc := C02_follows people_supported people_plain hf (before := []) (after := []) rfl (by simp)
    (path := utf8 c!"/people/17/") (.inl (by decide +kernel))
  have ha := (call_answers (W := world) people_supported people_plain (utf8 c!"/people/17/") (verbBytes .get) _).1
    (match_inRust hc)
  rw [← h4] at ha
  rw [← h4] at hf
  exact C55_again (W := world) h1 people_supported.hygienic people_plain e h2 printer (red := false) (o := .route _) rfl ha
    (.static _ (.dynamic _ _ .nil)) hf (before := []) (after := []) rfl rfl (by simp) rfl rfl rfl (by simp [RouteVal.inRust, matchOf]) _ _

end Wayfinder.Demo

namespace Wayfinder
open Rust

/-- **C55, every value is handled.** In an accepted module the variants that lead to a struct are all handled by the `to_path` of
their enums, so no value is left without an arm. -/
theorem C55_handled : ∀ (mods : List Str) (root : Bool) (m : Mod) (x : Str) (s : Struct), m.ok root = true →
    m.inside mods x = some s → m.handles mods x = true
  | [], root, .mk structs subs variants handled, x, s, hok, hi => by
    simp only [Mod.inside] at hi
    split at hi
    · rename_i y hl
      simp only [Mod.ok, Mod.localOk, Bool.and_eq_true] at hok
      have hp := List.isPerm_iff.1 hok.1.2
      simp only [Mod.handles, List.contains_iff_mem]
      exact hp.mem_iff.2 (List.mem_map.2 ⟨_, lookupVar_some hl, rfl⟩)
    · cases hi
  | v :: vs, root, .mk structs subs variants handled, x, s, hok, hi => by
    simp only [Mod.inside] at hi
    split at hi
    · rename_i y z hl
      simp only [Mod.ok, Mod.localOk, Bool.and_eq_true] at hok
      have hp := List.isPerm_iff.1 hok.1.2
      cases hs : lookupVar y subs with
      | none => simp [Mod.subs, hs] at hi
      | some sub =>
        simp only [Mod.subs, hs, Option.bind_some] at hi
        have hm := hok.2
        rw [modsOk_eq, List.all_eq_true] at hm
        have := C55_handled vs false sub x s (hm _ (lookupVar_some hs)) hi
        simp only [Mod.handles, Mod.subs, hl, hs, Option.any_some, this, Bool.and_true, List.contains_iff_mem]
        exact hp.mem_iff.2 (List.mem_map.2 ⟨_, lookupVar_some hl, rfl⟩)
    · cases hi

open Demo in
/-- A case of `C55_handled`: the accepted file for the people. -/
example : ∃ m b, readText (headerToks (conf people).headers) (codegen (conf people)).text = some (m, b) ∧ m.ok true = true := by
  obtain ⟨_, m, b, e⟩ := accepted_of (r := people) (by decide +kernel)
  refine ⟨m, b, e, ?_⟩
  simp only [readText, Option.bind_eq_bind, Option.bind_eq_some_iff] at e
  obtain ⟨_, _, ⟨_, _⟩, _, _, _, e⟩ := e
  split at e
  · rename_i h
    simp only [Option.pure_def, Option.some.injEq, Prod.mk.injEq] at e
    rw [← e.1]
    exact (Bool.and_eq_true _ _ ▸ h).1
  · cases e

end Wayfinder
