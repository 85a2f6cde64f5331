import Verif.Model.Old
import Verif.Props.Table
import Verif.Props.RoundTrip
/-!
# C70: the old router and the new one
-/

namespace Wayfinder.Old
open Shipped

variable {W : World}

/-! ## Specification: the answers as tables on the pieces of the path -/

/-- The old router behind `people`.  A piece that begins with `n` is `new` or nothing; an empty piece takes the slash and the next piece
with it. -/
def peopleTable (W : World) (m : Bytes) (ps : List Bytes) : Outcome W :=
  if Finished ps then
    verbs m [(c!"GET", act c!"People" c!"Index" [] [c!"lang"]), (c!"POST", act c!"People" c!"Create" [] [c!"lang"])]
  else match ps with
  | [] => .notFound
  | piece :: more =>
    if piece.head? = some (asciiByte 'n') then
      if piece = bytesOf c!"new" ∧ Finished more then verbs m [(c!"GET", act c!"People" c!"New" [] [c!"lang"])] else .notFound
    else
      let captured := if piece = [] then slash :: more.headD [] else piece
      let behind := if piece = [] then more.tail else more
      match fromUtf8 captured with
      | none => .panic
      | some text =>
        match W.parse c!"Uuid" text with
        | .error e => .err c!"id" e
        | .ok v => oneTable W c!"People" [c!"lang", c!"name"] m v behind

/-- Both routers, with their tables for `people`. -/
def tableWith (people : List Bytes → Outcome W) (m : Bytes) : List Bytes → Outcome W
  | [] => .notFound
  | piece :: more =>
    if piece = bytesOf c!"users" then
      if Finished more then verbs m [(c!"GET", .redirect ⟨[c!"People"], c!"Index", [], [c!"lang"]⟩)] else .notFound
    else if piece = bytesOf c!"people" then people more
    else if piece = bytesOf c!"books" then
      if Finished more then verbs m [(c!"GET", act c!"Books" c!"Index" [] [c!"lang"])] else .notFound
    else .notFound

/-! ## The old router -/

theorem arms_verbs (m : Method) : ∀ os : List (Method × Outcome W), arms m os = verbs (verbBytes m) (os.map fun x => (x.1.display, x.2))
  | [] => rfl
  | (m', o) :: os => by
    have ih := arms_verbs m os
    simp only [arms, verbs, List.map_cons, ih]
    have : verbBytes m = bytesOf m'.display ↔ m = m' := by cases m <;> cases m' <;> decide
    simp only [this]

/-- A text up to its first slash. -/
theorem first_slash (t : Str) : '/' ∉ t ∨ ∃ p rest, '/' ∉ p ∧ t = p ++ '/' :: rest := by
  induction t with
  | nil => exact .inl (by simp)
  | cons c t ih =>
    by_cases hc : c = '/'
    · exact .inr ⟨[], t, by simp, by simp [hc]⟩
    · rcases ih with h | ⟨p, rest, h1, h2⟩
      · exact .inl (by simp [h, Ne.symm hc])
      · exact .inr ⟨c :: p, rest, by simp [h1, Ne.symm hc], by simp [h2]⟩

theorem cut_text {p : Str} (h : '/' ∉ p) : cut (utf8 p) = [utf8 p] := cut_single (slash_utf8 h)

theorem cut_texts {p : Str} (h : '/' ∉ p) (rest : Str) : cut (utf8 (p ++ '/' :: rest)) = utf8 p :: cut (utf8 rest) := by
  rw [utf8_append, utf8_cons, encode_ascii (by decide)]
  exact cut_append_slash (slash_utf8 h) _

theorem finished_cut {t : Str} : Finished (cut (utf8 t)) ↔ t = [] := by
  constructor
  · intro h
    rcases first_slash t with h1 | ⟨p, rest, h1, rfl⟩
    · rw [cut_text h1] at h
      rcases h with h | h
      · cases h
      · exact utf8_inj (b := []) (List.cons.inj h).1
    · rw [cut_texts h1] at h
      rcases h with h | h
      · cases h
      · exact absurd (List.cons.inj h).2 (cut_ne_nil _)
  · rintro rfl; exact .inr rfl

theorem expect_append (w rest : Str) (k : Str → Outcome W) : expect w (w ++ rest) k = k rest := by
  induction w with
  | nil => rfl
  | cons c w ih => simpa [expect] using ih

theorem expect_cases (w t : Str) (k : Str → Outcome W) :
    (∃ rest, t = w ++ rest ∧ expect w t k = k rest) ∨ (¬ w <+: t) ∧ expect w t k = .notFound := by
  by_cases h : w <+: t
  · obtain ⟨rest, rfl⟩ := h
    exact .inl ⟨rest, rfl, expect_append w rest k⟩
  · refine .inr ⟨h, ?_⟩
    induction w generalizing t with
    | nil => exact absurd List.nil_prefix h
    | cons c w ih =>
      cases t with
      | nil => rfl
      | cons d t =>
        simp only [expect]
        split
        · rename_i hd
          subst hd
          exact ih t fun hp => h (by obtain ⟨x, rfl⟩ := hp; exact ⟨x, rfl⟩)
        · rfl

/-- A word up to a slash or the end, in pieces. -/
theorem expect_word {w : Str} (hw : '/' ∉ w) (here : Outcome W) (k : Str → Outcome W) (t : Str) (f : List Bytes → Outcome W)
    (h1 : f [] = here) (h2 : ∀ rest, f (cut (utf8 rest)) = k rest) :
    expect w t (fun path => orSlash here path k) =
      match cut (utf8 t) with
      | [] => .notFound
      | piece :: more => if piece = utf8 w then f more else .notFound := by
  have key : ∀ p rest, '/' ∉ p → (rest = [] ∨ ∃ r, rest = '/' :: r) → t = p ++ rest →
      expect w t (fun path => orSlash here path k) = if p = w then orSlash here rest k else .notFound := by
    intro p rest hp hr ht
    subst ht
    by_cases he : p = w
    · subst he
      rw [expect_append, if_pos rfl]
    · rw [if_neg he]
      rcases expect_cases w (p ++ rest) (fun path => orSlash here path k) with ⟨rest', h3, h4⟩ | ⟨_, h4⟩
      · rw [h4]
        rw [List.append_eq_append_iff] at h3
        rcases h3 with ⟨x, h5, h6⟩ | ⟨x, h5, h6⟩
        · cases x with
          | nil => exact absurd (by simpa using h5.symm) he
          | cons c x =>
            rcases hr with hr | ⟨r, hr⟩
            · rw [hr] at h6; cases h6
            · rw [hr] at h6
              have := (List.cons.inj h6).1
              subst this
              exact absurd (by rw [h5]; simp) hw
        · cases x with
          | nil => exact absurd (by simpa using h5) he
          | cons c x =>
            subst h6
            have : c ≠ '/' := fun h => hp (by rw [h5, h]; simp)
            simp [orSlash, this]
      · exact h4
  rcases first_slash t with h | ⟨p, rest, h, rfl⟩
  · rw [key t [] h (.inl rfl) (by simp), cut_text h]
    simp only [orSlash, h1]
    by_cases he : t = w
    · simp [he]
    · rw [if_neg he, if_neg fun h => he (utf8_inj h)]
  · rw [key p ('/' :: rest) h (.inr ⟨rest, rfl⟩) rfl, cut_texts h]
    simp only [orSlash, if_true, h2]
    by_cases he : p = w
    · simp [he]
    · rw [if_neg he, if_neg fun h => he (utf8_inj h)]

theorem atEnd_cut (here : Outcome W) (t : Str) : (if Finished (cut (utf8 t)) then here else .notFound) = atEnd here t := by
  simp only [finished_cut]
  cases t <;> simp [atEnd]

theorem finished_nil : Finished [] := .inl rfl

/-- A word at the end of the path, with an optional slash. -/
theorem expect_last {w : Str} (hw : '/' ∉ w) (here : Outcome W) (t : Str) :
    expect w t (fun path => orSlash here path (atEnd here)) =
      match cut (utf8 t) with
      | [] => .notFound
      | piece :: more => if piece = utf8 w ∧ Finished more then here else .notFound := by
  rw [expect_word hw here (atEnd here) t (fun ps => if Finished ps then here else .notFound) (if_pos finished_nil)
    (fun rest => atEnd_cut here rest)]
  cases cut (utf8 t) with
  | nil => rfl
  | cons piece more =>
    simp only
    by_cases h1 : piece = utf8 w <;> by_cases h2 : Finished more <;> simp [h1, h2]

/-- The first character has been read already. -/
theorem expect_cons (c : Char) (w t : Str) (k : Str → Outcome W) : expect w t k = expect (c :: w) (c :: t) k := by
  simp [expect]

theorem one_table (m : Method) (v : W.V) (t : Str) :
    one W m v t = oneTable W c!"People" [c!"lang", c!"name"] (verbBytes m) v (cut (utf8 t)) := by
  unfold oneTable
  cases t with
  | nil =>
    rw [if_pos (finished_cut.2 rfl)]
    simp only [one, arms_verbs]
    rfl
  | cons c t =>
    rw [if_neg (fun h => by cases finished_cut.1 h)]
    simp only [one]
    have hb : utf8 c!"edit" = bytesOf c!"edit" := by decide
    split
    · rename_i hc
      subst hc
      rw [expect_cons 'e', expect_last (by decide)]
      cases cut (utf8 ('e' :: t)) with
      | nil => simp
      | cons piece more =>
        simp only [List.head?_cons, Option.some.injEq, List.tail_cons, hb, arms_verbs]
        rfl
    · rename_i hc
      rw [if_neg]
      rintro ⟨h1, -⟩
      rcases first_slash (c :: t) with h | ⟨p, rest, h, he⟩
      · rw [cut_text h] at h1
        have := utf8_inj (b := c!"edit") ((Option.some.inj h1).trans hb.symm)
        exact hc (List.cons.inj this).1
      · rw [he, cut_texts h] at h1
        have := utf8_inj (b := c!"edit") ((Option.some.inj h1).trans hb.symm)
        subst this
        exact hc (List.cons.inj he).1

theorem collect_text {p : Str} (h : '/' ∉ p) (a : Str) : collect a p = (a ++ p, []) := by
  induction p generalizing a with
  | nil => simp [collect]
  | cons c p ih =>
    have hc : c ≠ '/' := fun e => h (by simp [e])
    simp only [collect, if_neg hc]
    rw [ih (fun hm => h (by simp [hm]))]
    simp

theorem collect_texts {p : Str} (h : '/' ∉ p) (a rest : Str) : collect a (p ++ '/' :: rest) = (a ++ p, rest) := by
  induction p generalizing a with
  | nil => simp [collect]
  | cons c p ih =>
    have hc : c ≠ '/' := fun e => h (by simp [e])
    simp only [List.cons_append, collect, if_neg hc]
    rw [ih (fun hm => h (by simp [hm]))]
    simp

/-- Nothing is left: the end, or one empty piece. -/
theorem one_nil (m : Method) (v : W.V) : one W m v [] = oneTable W c!"People" [c!"lang", c!"name"] (verbBytes m) v [] := by
  rw [one_table]
  rfl

theorem utf8_head {c d : Char} (hd : d.toNat < 128) (t : Str) : (utf8 (c :: t)).head? = some (asciiByte d) ↔ c = d := by
  constructor
  · intro h
    obtain ⟨b, hb⟩ : ∃ b, utf8 (c :: t) = [] ++ asciiByte d :: b := by
      cases hu : utf8 (c :: t) with
      | nil => rw [hu] at h; cases h
      | cons a b => rw [hu] at h; cases h; exact ⟨b, rfl⟩
    obtain ⟨s1, s2, h1, h2, _⟩ := utf8_split hd hb
    have : s1 = [] := utf8_inj (b := []) h2.symm
    subst this
    exact (List.cons.inj h1).1
  · rintro rfl
    rw [utf8_cons, encode_ascii hd]; rfl

theorem people_table (m : Method) (t : Str) : people W m t = peopleTable W (verbBytes m) (cut (utf8 t)) := by
  unfold peopleTable
  cases t with
  | nil =>
    rw [if_pos (finished_cut.2 rfl)]
    simp only [people, list, arms_verbs]
    rfl
  | cons c t =>
    rw [if_neg (fun h => by cases finished_cut.1 h)]
    simp only [people]
    have hb : utf8 c!"new" = bytesOf c!"new" := by decide
    by_cases hc : c = 'n'
    · subst hc
      rw [if_pos rfl, expect_cons 'n', expect_last (by decide), arms_verbs]
      have hh : ∀ piece more, cut (utf8 ('n' :: t)) = piece :: more → piece.head? = some (asciiByte 'n') := by
        intro piece more he
        rcases first_slash ('n' :: t) with h | ⟨p, rest, h, h1⟩
        · rw [cut_text h] at he
          rw [← (List.cons.inj he).1]
          exact (utf8_head (by decide) t).2 rfl
        · rw [h1, cut_texts h] at he
          rw [← (List.cons.inj he).1]
          cases p with
          | nil => cases h1
          | cons d p => exact (utf8_head (by decide) p).2 (List.cons.inj h1).1.symm
      cases hcut : cut (utf8 ('n' :: t)) with
      | nil => rfl
      | cons piece more =>
        simp only [if_pos (hh piece more hcut), hb]
        rfl
    · rw [if_neg hc]
      by_cases hs : c = '/'
      · subst hs
        have h0 := cut_texts (p := []) (by simp) t
        simp only [List.nil_append] at h0
        rw [h0]
        simp only [utf8_nil, List.head?_nil, if_true]
        rw [if_neg (by simp)]
        rcases first_slash t with h | ⟨p, rest, h, rfl⟩
        · rw [collect_text h, cut_text h]
          have : slash :: utf8 t = utf8 ('/' :: t) := by rw [utf8_cons, encode_ascii (by decide)]; rfl
          simp only [List.headD_cons, List.tail_cons, this, fromUtf8_utf8, List.cons_append, List.nil_append, one_nil]
          generalize W.parse _ _ = x
          cases x <;> rfl
        · rw [collect_texts h, cut_texts h]
          have : slash :: utf8 p = utf8 ('/' :: p) := by rw [utf8_cons, encode_ascii (by decide)]; rfl
          simp only [List.headD_cons, List.tail_cons, this, fromUtf8_utf8, List.cons_append, List.nil_append, one_table]
          generalize W.parse _ _ = x
          cases x <;> rfl
      · have hne : ∀ p : Str, utf8 (c :: p) ≠ [] := fun p h => by cases utf8_inj (a := c :: p) (b := []) h
        rcases first_slash t with h | ⟨p, rest, h, rfl⟩
        · rw [collect_text h, cut_text (p := c :: t) (by simp [h, Ne.symm hs])]
          simp only [if_neg (hne t), if_neg (mt (utf8_head (by decide) t).1 hc), fromUtf8_utf8, List.cons_append, List.nil_append, one_nil]
          generalize W.parse _ _ = x
          cases x <;> rfl
        · rw [collect_texts h, ← List.cons_append, cut_texts (p := c :: p) (by simp [h, Ne.symm hs])]
          simp only [if_neg (hne p), if_neg (mt (utf8_head (by decide) p).1 hc), fromUtf8_utf8, List.cons_append, List.nil_append, one_table]
          generalize W.parse _ _ = x
          cases x <;> rfl

theorem strip_text (t : Str) : stripSlash (utf8 t) = utf8 (skipSlash t) := by
  cases t with
  | nil => rfl
  | cons c t =>
    simp only [skipSlash]
    split
    · rename_i h
      subst h
      rw [utf8_cons, encode_ascii (by decide)]
      rfl
    · rename_i h
      cases hu : utf8 (c :: t) with
      | nil => rfl
      | cons b bs =>
        have : b ≠ slash := fun hb => h ((utf8_head (d := '/') (by decide) t).1 (by rw [hu, hb]; rfl))
        simp [stripSlash, this]

/-- The first piece of a text. -/
theorem cut_head (c : Char) (t : Str) : ∃ p more, cut (utf8 (c :: t)) = utf8 p :: more ∧ (c ≠ '/' → p.head? = some c) := by
  rcases first_slash (c :: t) with h | ⟨p, rest, h, he⟩
  · exact ⟨c :: t, [], cut_text h, fun _ => rfl⟩
  · refine ⟨p, _, by rw [he]; exact cut_texts h rest, fun hc => ?_⟩
    cases p with
    | nil => exact absurd (List.cons.inj he).1 hc
    | cons d p => rw [(List.cons.inj he).1]; rfl

theorem search_table (m : Method) (t : Str) :
    search W m t = tableWith (peopleTable W (verbBytes m)) (verbBytes m) (cut (stripSlash (utf8 t))) := by
  rw [strip_text]
  simp only [search]
  generalize skipSlash t = t
  have hu : utf8 c!"users" = bytesOf c!"users" := by decide
  have hp : utf8 c!"people" = bytesOf c!"people" := by decide
  have hb : utf8 c!"books" = bytesOf c!"books" := by decide
  cases t with
  | nil => rfl
  | cons c t =>
    simp only
    have hhead : c ≠ '/' → ∀ w more, cut (utf8 (c :: t)) = utf8 w :: more → w.head? = some c := by
      intro hc w more he
      obtain ⟨p, more', h1, h2⟩ := cut_head c t
      rw [h1] at he
      rw [← utf8_inj (List.cons.inj he).1]
      exact h2 hc
    by_cases h1 : c = 'b'
    · subst h1
      rw [if_pos rfl, expect_cons 'b', expect_last (by decide)]
      cases hcut : cut (utf8 ('b' :: t)) with
      | nil => rfl
      | cons piece more =>
        have hh : ∀ w : Str, piece = utf8 w → w.head? = some 'b' := fun w he => hhead (by decide) w more (by rw [hcut, he])
        have n1 : piece ≠ bytesOf c!"users" := fun he => by have := hh _ (he.trans hu.symm); revert this; decide
        have n2 : piece ≠ bytesOf c!"people" := fun he => by have := hh _ (he.trans hp.symm); revert this; decide
        simp only [tableWith, if_neg n1, if_neg n2, hb, arms_verbs]
        by_cases he : piece = bytesOf c!"books" <;> by_cases hf : Finished more <;> simp [he, hf] <;> rfl
    rw [if_neg h1]
    by_cases h2 : c = 'p'
    · subst h2
      rw [if_pos rfl, expect_cons 'p', expect_word (by decide) _ _ _ (peopleTable W (verbBytes m))
        (by rw [list, arms_verbs]; rfl) (fun rest => (people_table m rest).symm)]
      cases hcut : cut (utf8 ('p' :: t)) with
      | nil => rfl
      | cons piece more =>
        have hh : ∀ w : Str, piece = utf8 w → w.head? = some 'p' := fun w he => hhead (by decide) w more (by rw [hcut, he])
        have n1 : piece ≠ bytesOf c!"users" := fun he => by have := hh _ (he.trans hu.symm); revert this; decide
        have n2 : piece ≠ bytesOf c!"books" := fun he => by have := hh _ (he.trans hb.symm); revert this; decide
        simp only [tableWith, if_neg n1, if_neg n2, hp]
    rw [if_neg h2]
    by_cases h3 : c = 'u'
    · subst h3
      rw [if_pos rfl, expect_cons 'u', expect_last (by decide)]
      cases hcut : cut (utf8 ('u' :: t)) with
      | nil => rfl
      | cons piece more =>
        have hh : ∀ w : Str, piece = utf8 w → w.head? = some 'u' := fun w he => hhead (by decide) w more (by rw [hcut, he])
        have n1 : piece ≠ bytesOf c!"people" := fun he => by have := hh _ (he.trans hp.symm); revert this; decide
        have n2 : piece ≠ bytesOf c!"books" := fun he => by have := hh _ (he.trans hb.symm); revert this; decide
        simp only [tableWith, if_neg n1, if_neg n2, hu, arms_verbs]
        by_cases he : piece = bytesOf c!"users" <;> by_cases hf : Finished more <;> simp [he, hf] <;> rfl
    rw [if_neg h3]
    obtain ⟨p, more, h4, h5⟩ := cut_head c t
    have hne : ∀ w : Str, w.head? ≠ some c → w ≠ [] → utf8 p ≠ utf8 w := by
      intro w hw hn he
      have he := utf8_inj he
      subst he
      by_cases hc : c = '/'
      · subst hc
        have h0 := cut_texts (p := []) (by simp) t
        simp only [List.nil_append] at h0
        rw [h0] at h4
        exact hn (utf8_inj (List.cons.inj h4).1).symm
      · exact hw (h5 hc)
    rw [h4]
    simp only [tableWith, ← hu, ← hp, ← hb]
    rw [if_neg (hne _ (by simpa using Ne.symm h3) (by decide)), if_neg (hne _ (by simpa using Ne.symm h2) (by decide)),
      if_neg (hne _ (by simpa using Ne.symm h1) (by decide))]

/-! ## C70 -/

/-- **C70, the old router.** What `match_route` in `wayfinder-goal/src/routes2.rs` answers, for every path and verb: it answers by the
table, and panics if the path is not UTF-8. -/
theorem C70_old (W : World) (m : Method) :
    (∀ t : Str, matchRoute W (utf8 t) m = tableWith (peopleTable W (verbBytes m)) (verbBytes m) (cut (stripSlash (utf8 t)))) ∧
    ∀ path : Bytes, (∀ t, path ≠ utf8 t) → matchRoute W path m = .panic := by
  constructor
  · intro t
    rw [matchRoute, fromUtf8_utf8]
    exact search_table m t
  · intro path h
    unfold matchRoute
    cases h1 : fromUtf8 path with
    | none => rfl
    | some t => exact absurd (utf8_of_fromUtf8 h1) (h t)

/-- The routes in the comment of the old router, `routes2.rs:11-28`. -/
def comment : Str :=
  c!"/\n  [lang: String]\n  users\n    GET -> People::Index\n" ++
  c!"  people\n    GET People::Index\n    POST People::Create\n" ++ c!"    new\n      GET People::New\n    {id: Uuid}\n" ++
  c!"      GET People::Show\n      PUT People::Update\n" ++ c!"        [name: String]\n      DELETE People::Destroy\n" ++
  c!"      edit\n        GET People::Edit\n  books\n    GET Books::Index\n"

/-- The configuration of the old router; the header is in `routes2.rs:37`. -/
def config : RouteConfig where
  headers := [⟨c!"use uuid::Uuid;"⟩]
  routes := .mk [] [.mk (.static c!"users") (usersOf c!"Index"),
    .mk (.static c!"people") (kindBlock c!"People" [⟨c!"name", c!"String"⟩]),
    .mk (.static c!"books") (.mk [plain .get c!"Books" c!"Index"] [] [])] [lang]

set_option maxRecDepth 100000 in
/-- The comment says this configuration. -/
theorem comment_read (cfg : ParseCfg) : routeConfig cfg comment = .ok [] ⟨[], config.routes⟩ := by
  obtain ⟨u, a, e⟩ := cfg
  cases e <;> rfl

theorem config_supported : Supported config.routes (bodyOf config.routes) := supported_of (by decide +kernel)
theorem config_plain : PlainTexts config.routes := plainTexts_of (by decide)

theorem go_config (hs : Sound config.routes) {ps : List Bytes} (hc : Clear ps) (m : Bytes) :
    go W m config.routes [] [] ps = tableWith (kindTable W c!"People" [c!"lang", c!"name"] m) m ps := by
  cases ps with
  | nil => rfl
  | cons piece more =>
    have hn : ∀ {s sub}, NestedRoutes.mk (.static s) sub ∈ config.routes.routes →
        go W m config.routes [] [] (bytesOf s :: more) = go W m sub [lang] [] more := fun h => go_static hs h (.inl rfl) more [] []
    simp only [tableWith]
    by_cases h1 : piece = bytesOf c!"users"
    · have hm : NestedRoutes.mk (.static c!"users") (usersOf c!"Index") ∈ config.routes.routes := List.mem_cons_self ..
      rw [if_pos h1, h1, hn hm]
      split
      · rename_i hf
        rw [go_finished hf (by simp [usersOf]), answer_verbs]
        rfl
      · rename_i hf
        exact go_leaf _ (hs.child (.static hm (.here _))) hc.tail hf m _ _
    rw [if_neg h1]
    by_cases h2 : piece = bytesOf c!"people"
    · have hm : NestedRoutes.mk (.static c!"people") (kindBlock c!"People" [⟨c!"name", c!"String"⟩]) ∈ config.routes.routes :=
        .tail _ (.head _)
      rw [if_pos h2, h2, hn hm]
      exact go_kind (hs.child (.static hm (.here _))) hc.tail m
    rw [if_neg h2]
    by_cases h3 : piece = bytesOf c!"books"
    · have hm : NestedRoutes.mk (.static c!"books") (.mk [plain .get c!"Books" c!"Index"] [] []) ∈ config.routes.routes :=
        .tail _ (.tail _ (.head _))
      rw [if_pos h3, h3, hn hm]
      split
      · rename_i hf
        rw [go_finished hf (by simp), answer_verbs]
        rfl
      · rename_i hf
        exact go_leaf _ (hs.child (.static hm (.here _))) hc.tail hf m _ _
    rw [if_neg h3]
    refine go_lost hs hc (fun s sub h => ?_) (fun p sub => no_takes rfl) (fun _ _ => rfl) (fun h => h.2.1 rfl) m _ _
    have : s = c!"users" ∨ s = c!"people" ∨ s = c!"books" := by
      simp only [config, Routes.routes_mk, List.mem_cons, NestedRoutes.mk.injEq, PathSegment.static.injEq, List.not_mem_nil,
        or_false] at h
      rcases h with h | h | h
      · exact .inl h.1
      · exact .inr (.inl h.1)
      · exact .inr (.inr h.1)
    rcases this with rfl | rfl | rfl
    · exact Ne.symm h1
    · exact Ne.symm h2
    · exact Ne.symm h3

theorem tableWith_inRust (m : Bytes) (ps : List Bytes) :
    Rust.Outcome.inRust (tableWith (kindTable W c!"People" [c!"lang", c!"name"] m) m ps) =
      tableWith (kindTable W c!"People" [c!"lang", c!"name"] m) m ps := by
  unfold tableWith
  split
  · rfl
  · rename_i piece more
    split
    · split
      · rw [verbs_inRust]; rfl
      · rfl
    · split
      · exact table_inRust (W := W) (users := c!"Index") (by decide) m (bytesOf c!"people" :: more)
      · split
        · split
          · rw [verbs_inRust]; rfl
          · rfl
        · rfl

/-- **C70, the new router.** The comment of the old router gives a configuration; what the present generator emits for it answers by a
table that differs from that of the old router behind `people` only. -/
theorem C70_new (W : World) (path m : Bytes) : (∀ cfg, routeConfig cfg comment = .ok [] ⟨[], config.routes⟩) ∧
    Rust.callText W (Rust.headerToks config.headers) (codegen config).text path m =
      tableWith (kindTable W c!"People" [c!"lang", c!"name"] m) m (cut (stripSlash path)) := by
  refine ⟨comment_read, ?_⟩
  rw [Rust.C42_program (Rust.clean_of (by decide +kernel)) config_supported.1 config_supported.2, call_go config_supported,
    go_config (config_supported.sound config_plain) (cut_slash _), tableWith_inRust]

/-- The pieces of paths on which the two routers agree: behind `people`, no piece that is empty and not the last, and none that begins
with `n` and not with `new`. -/
def Agreeable (ps : List Bytes) : Prop :=
  ∀ piece more, ps = bytesOf c!"people" :: piece :: more →
    (piece = [] → more = []) ∧ (piece.head? = some (asciiByte 'n') → bytesOf c!"new" <+: piece)

theorem people_same (m : Bytes) {ps : List Bytes}
    (h : ∀ piece more, ps = piece :: more →
      (piece = [] → more = []) ∧ (piece.head? = some (asciiByte 'n') → bytesOf c!"new" <+: piece)) :
    peopleTable W m ps = kindTable W c!"People" [c!"lang", c!"name"] m ps := by
  unfold peopleTable kindTable
  split
  · rfl
  · rename_i hf
    cases ps with
    | nil => rfl
    | cons piece more =>
      obtain ⟨h1, h2⟩ := h piece more rfl
      have hne : piece ≠ [] := fun he => hf (.inr (by rw [he, h1 he]))
      simp only [if_neg hne]
      by_cases hn : piece.head? = some (asciiByte 'n')
      · rw [if_pos hn, if_pos (h2 hn)]
      · have hp : ¬ bytesOf c!"new" <+: piece := by
          rintro ⟨x, rfl⟩
          exact hn rfl
        rw [if_neg hn, if_neg hp]
        cases fromUtf8 piece with
        | none => rfl
        | some text =>
          simp only
          cases W.parse c!"Uuid" text <;> rfl

/-- **C70.** The old router and the new one answer a request for a path in UTF-8 alike, unless the piece behind `people` is empty and not
the last one, or begins with `n` and not with `new`. -/
theorem C70_agree (W : World) (t : Str) (m : Method) (h : Agreeable (cut (stripSlash (utf8 t)))) :
    matchRoute W (utf8 t) m = Rust.callText W (Rust.headerToks config.headers) (codegen config).text (utf8 t) (verbBytes m) := by
  rw [(C70_old W m).1, (C70_new W _ _).2]
  cases hcut : cut (stripSlash (utf8 t)) with
  | nil => rfl
  | cons piece more =>
    rw [hcut] at h
    simp only [tableWith]
    by_cases h2 : piece = bytesOf c!"people"
    · subst h2
      rw [if_pos rfl, if_pos rfl, people_same _ fun p ps he => h p ps (by rw [he])]
    · simp only [if_neg h2]

/-- **C70, the goal.** On such a path that does not begin with `books`, the router of `wayfinder-goal` answers alike as well.  These are the
two routers compared by the benchmark. -/
theorem C70_goal (W : World) (t : Str) (m : Method) (h : Agreeable (cut (stripSlash (utf8 t))))
    (hb : (cut (stripSlash (utf8 t))).head? ≠ some (bytesOf c!"books")) :
    matchRoute W (utf8 t) m = Rust.callFormatted W (Rust.headerToks Goal.config.headers) Goal.text (utf8 t) (verbBytes m) := by
  rw [(C70_old W m).1, C63_goal]
  cases hcut : cut (stripSlash (utf8 t)) with
  | nil => rfl
  | cons piece more =>
    rw [hcut] at h hb
    have hb : piece ≠ bytesOf c!"books" := fun he => hb (by rw [he]; rfl)
    simp only [tableWith, table, if_neg hb]
    by_cases h2 : piece = bytesOf c!"people"
    · subst h2
      rw [if_pos rfl, people_same _ fun p ps he => h p ps (by rw [he])]
      rfl
    · simp only [if_neg h2]

/-- The path of the benchmark, `wayfinder-goal/src/benches.rs:13`. -/
def benchPath : Str := c!"/people/12345678901234567890123456789012/edit/"

/-- **C70, the tests of the benchmark.** Both routers find the action that `wayfinder-goal/src/benches.rs:27-43` expects, if the UUID
parses. -/
theorem C70_tests {W : World} {v : W.V} (hv : W.parse c!"Uuid" testId = .ok v) :
    matchRoute W (utf8 benchPath) .get = act c!"People" c!"Edit" [(c!"id", v)] [c!"lang"] ∧
    Rust.callFormatted W (Rust.headerToks Goal.config.headers) Goal.text (utf8 benchPath) (verbBytes .get) =
      act c!"People" c!"Edit" [(c!"id", v)] [c!"lang"] := by
  have hcut : cut (stripSlash (utf8 benchPath)) = [bytesOf c!"people", bytesOf testId, bytesOf c!"edit", []] := by decide +kernel
  have h2 : Rust.callFormatted W (Rust.headerToks Goal.config.headers) Goal.text (utf8 benchPath) (verbBytes .get) =
      act c!"People" c!"Edit" [(c!"id", v)] [c!"lang"] := by
    rw [C63_goal]
    exact people_id hv _ [bytesOf c!"edit", []] hcut
  refine ⟨?_, h2⟩
  rw [← h2]
  refine C70_goal W benchPath .get ?_ ?_
  · rw [hcut]
    intro piece more he
    cases he
    exact ⟨by decide, by decide⟩
  · rw [hcut]
    decide

/-! ## The routers differ elsewhere -/

/-- **C70, refuted without the conditions.** `/people/nobody` is not found by the old router, and by the new one it is a request for the
person `nobody`. -/
theorem C70_n_false : ∃ t : Str, matchRoute uuids (utf8 t) .get = .notFound ∧
    Rust.callText uuids (Rust.headerToks config.headers) (codegen config).text (utf8 t) (verbBytes .get) =
      .err c!"id" c!"invalid character" := by
  refine ⟨c!"/people/nobody", ?_, ?_⟩
  · rw [(C70_old _ _).1]; rfl
  · rw [(C70_new _ _ _).2]; rfl

/-- `/people//edit` is a request for the person `/edit`; the new router edits the person with the empty name. -/
theorem C70_empty_false : ∃ t : Str,
    matchRoute Demo.world (utf8 t) .get = act c!"People" c!"Show" [(c!"id", c!"/edit")] [c!"lang"] ∧
    Rust.callText Demo.world (Rust.headerToks config.headers) (codegen config).text (utf8 t) (verbBytes .get) =
      act c!"People" c!"Edit" [(c!"id", [])] [c!"lang"] := by
  refine ⟨c!"/people//edit", ?_, ?_⟩
  · rw [(C70_old _ _).1]; rfl
  · rw [(C70_new _ _ _).2]; rfl

/-- The old router panics on every path that is not UTF-8. -/
theorem C70_utf8_false : ∃ path : Bytes, matchRoute uuids path .get = .panic ∧
    Rust.callText uuids (Rust.headerToks config.headers) (codegen config).text path (verbBytes .get) = .notFound := by
  refine ⟨[255], (C70_old _ _).2 _ fun t h => ?_, ?_⟩
  · have := fromUtf8_utf8 t
    rw [← h] at this
    revert this
    have h1 : fromUtf8 [255] = none := by decide +kernel
    rw [h1]
    intro h2; cases h2
  rw [(C70_new _ _ _).2]; rfl

/-! ## A case -/

example : Agreeable (cut (stripSlash (utf8 c!"/people/new/"))) := by
  intro piece more he
  have hcut : cut (stripSlash (utf8 c!"/people/new/")) = [bytesOf c!"people", bytesOf c!"new", []] := by decide
  rw [hcut] at he
  cases he
  exact ⟨by decide, by decide⟩

end Wayfinder.Old
