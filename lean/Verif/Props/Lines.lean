import Verif.Proofs.Lines
import Verif.Proofs.Ascii
import Verif.Props.File
/-!
# C33, C34: blank lines, line endings and the case of verbs
-/

namespace Wayfinder

variable (cfg : ParseCfg)

/-! ## C33 -/

/-- **C33, texts with the same lines.** Texts which differ only in the number of line endings in runs of
line endings, and in their style, have the same outcome: both are accepted with the same configuration,
or both are rejected with an error, or both with a failure. -/
theorem C33_lines {i j : Str} (h : SameLines i j) :
    (∀ c, routeConfig cfg i = .ok [] c ↔ routeConfig cfg j = .ok [] c) ∧
    ((∃ e, routeConfig cfg i = .error e) ↔ ∃ e, routeConfig cfg j = .error e) ∧
    ((∃ e, routeConfig cfg i = .failure e) ↔ ∃ e, routeConfig cfg j = .failure e) := by
  have := like_routeConfig cfg i j h
  cases hi : routeConfig cfg i <;> cases hj : routeConfig cfg j <;> rw [hi, hj] at this
  all_goals first | exact this.elim | simp | skip
  rename_i r a s b
  have h1 := C30_consumes cfg hi
  have h2 := C30_consumes cfg hj
  subst h1; subst h2
  rw [this.2]
  simp

theorem marks_cr (r : Str) : marks ('\r' :: '\n' :: r) = marks ('\n' :: r) := by rw [marks_crlf, marks_lf]

/-- Texts with the same lines have them after any beginning that is closed by a line ending. -/
theorem sameLines_append {x y : Str} (h : marks ('\n' :: x) = marks ('\n' :: y)) :
    ∀ a : Str, marks (a ++ '\n' :: x) = marks (a ++ '\n' :: y)
  | [] => h
  | c :: a => by
    have ih := sameLines_append h a
    by_cases hn : c = '\n'
    · subst hn
      simp only [List.cons_append, marks_lf] at ih ⊢
      rw [ih]
    · have hhead : (a ++ '\n' :: x).head? = (a ++ '\n' :: y).head? := by cases a <;> rfl
      by_cases hc : c = '\r' ∧ (a ++ '\n' :: x).head? = some '\n'
      · obtain ⟨rfl, hc⟩ := hc
        have key : ∀ z : Str, (a ++ '\n' :: z).head? = some '\n' → marks ('\r' :: (a ++ '\n' :: z)) = marks (a ++ '\n' :: z) := by
          intro z hz
          cases hzz : a ++ '\n' :: z with
          | nil => rw [hzz] at hz; cases hz
          | cons d w =>
            rw [hzz] at hz
            simp only [List.head?_cons, Option.some.injEq] at hz
            subst hz
            exact marks_cr w
        rw [List.cons_append, List.cons_append, key x hc, key y (hhead ▸ hc), ih]
      · have h1 : c = '\r' → (a ++ '\n' :: x).head? ≠ some '\n' := fun h h' => hc ⟨h, h'⟩
        rw [List.cons_append, List.cons_append, marks_char hn h1, marks_char hn (hhead ▸ h1), ih]

/-- A switched line ending. -/
theorem sameLines_style (b : Str) : ∀ a : Str, a.getLast? ≠ some '\r' →
    marks (a ++ '\n' :: b) = marks (a ++ '\r' :: '\n' :: b)
  | [], _ => (marks_cr b).symm
  | c :: a, h => by
    by_cases ha : a = []
    · subst ha
      have hc : c ≠ '\r' := by simpa using h
      by_cases hn : c = '\n'
      · subst hn
        simp only [List.cons_append, List.nil_append, marks_lf, marks_crlf]
      · simp only [List.cons_append, List.nil_append]
        rw [marks_char hn fun e => absurd e hc, marks_char hn fun e => absurd e hc, marks_cr]
    · obtain ⟨d, a', rfl⟩ := List.exists_cons_of_ne_nil ha
      have ih := sameLines_style b (d :: a') (by simpa using h)
      by_cases hn : c = '\n'
      · subst hn
        show marks ('\n' :: (d :: a' ++ _)) = marks ('\n' :: (d :: a' ++ _))
        rw [marks_lf, marks_lf, ih]
      · by_cases hc : c = '\r' ∧ d = '\n'
        · obtain ⟨rfl, rfl⟩ := hc
          simp only [List.cons_append] at ih ⊢
          rw [marks_cr, marks_cr, ih]
        · have h1 : ∀ z : Str, c = '\r' → (d :: a' ++ z).head? ≠ some '\n' := by
            intro z h h'; simp at h'; exact hc ⟨h, h'⟩
          show marks (c :: (d :: a' ++ _)) = marks (c :: (d :: a' ++ _))
          rw [marks_char hn (h1 _), marks_char hn (h1 _), ih]

/-- An empty line at the beginning. -/
theorem leading_blank (i : Str) (c : RouteConfig) :
    routeConfig cfg i = .ok [] c ↔ routeConfig cfg ('\n' :: i) = .ok [] c := by
  by_cases hm : marks i = marks ('\n' :: i)
  · exact (C33_lines cfg hm).1 c
  · have hi : ∃ x, pLineEnding i = .error x := by
      rcases marks_form i with rfl | ⟨d, r, rfl, h1, h2, _⟩ | ⟨r, hr, h2⟩
      · exact ⟨_, rfl⟩
      · exact ⟨_, lineEnding_char h1 h2⟩
      · refine absurd ?_ hm
        rw [marks_lf, h2, eolMark]
    obtain ⟨x, hx⟩ := hi
    have hrun : pMany1 pLineEnding ('\n' :: i) = .ok i [()] := by
      rw [many1_eq]
      simp only [pLineEnding]
      rw [many0_eq tidy_lineEnding, hx]
      rfl
    have hh : pHeader ('\n' :: i) = .ok i ⟨[]⟩ := by
      have hd : ('\n' :: i).dropWhile notEol = '\n' :: i := rfl
      rcases header_eq ('\n' :: i) with ⟨_, r, l, h3, h4⟩ | ⟨h3, _, _⟩
      · rw [hd, hrun] at h3; cases h3; exact h4
      · rcases h3 with h3 | ⟨e, h3⟩
        · simp at h3
        · rw [hd] at h3; cases h3
    have hloop : pMany0 pHeader ('\n' :: i) = (pMany0 pHeader i).prepend [⟨[]⟩] := by
      rw [many0_eq tidy_header, hh]
      simp only
      rw [if_neg]
      intro h
      exact absurd (congrArg List.length h) (by simp)
    have : routeConfig cfg ('\n' :: i) = routeConfig cfg i := by
      unfold routeConfig
      conv => lhs; unfold pBind
      conv => rhs; unfold pBind
      rw [hloop]
      cases pMany0 pHeader i with
      | ok r l => simp [Res.prepend]
      | error e => rfl
      | failure e => rfl
    rw [this]

/-- **C33.** Adding or removing empty lines, anywhere between the lines, before the first or after the
last, and switching line endings between `\n` and `\r\n` does not change the configuration that a text is
read as, nor whether it is accepted. -/
theorem C33_reline {i j : Str} (h : Reline i j) (c : RouteConfig) :
    routeConfig cfg i = .ok [] c ↔ routeConfig cfg j = .ok [] c := by
  induction h with
  | blank a b =>
    exact (C33_lines cfg (sameLines_append (by rw [marks_lf, marks_lf, marks_lf]; simp [eolMark_eq, stripMark]) a)).1 c
  | leading b => exact leading_blank cfg b c
  | style a b h => exact (C33_lines cfg (sameLines_style b a h)).1 c
  | refl => exact .rfl
  | symm _ ih => exact ih.symm
  | trans _ _ ih1 ih2 => exact ih1.trans ih2

/-- The file with `\r\n` line endings. -/
def toCrlf (i : Str) : Str := i.flatMap fun c => if c = '\n' then c!"\r\n" else [c]

/-- **C33, whole files.** Converting all line endings of a file, in either direction. -/
theorem C33_crlf {i : Str} (h : '\r' ∉ i) (c : RouteConfig) :
    routeConfig cfg i = .ok [] c ↔ routeConfig cfg (toCrlf i) = .ok [] c := by
  refine (C33_lines cfg (show marks i = marks (toCrlf i) from ?_)).1 c
  induction i with
  | nil => rfl
  | cons d i ih =>
    have ih := ih fun h' => h (by simp [h'])
    have hd : d ≠ '\r' := fun e => h (by simp [e])
    by_cases hn : d = '\n'
    · subst hn
      show marks ('\n' :: i) = marks ('\r' :: '\n' :: toCrlf i)
      rw [marks_lf, marks_crlf, ih]
    · have : toCrlf (d :: i) = d :: toCrlf i := by simp [toCrlf, hn]
      rw [this, marks_char hn fun e => absurd e hd, marks_char hn fun e => absurd e hd, ih]

/-- The sample file in the other style with more empty lines is read in the same way. -/
example : SameLines c!"use a;\n\n/\n  GET Foo\n    [q: T]\n\n  bar\n    GET Bar\n"
    c!"use a;\r\n/\r\n\r\n\n  GET Foo\r\n    [q: T]\r\n  bar\n\n    GET Bar\n\n\n" :=
  show marks _ = marks _ by decide +kernel

example : Reline c!"/\n  GET A\n" c!"\n/\r\n  GET A\n\n" :=
  .trans (.trans (.leading _) (.style c!"\n/" c!"  GET A\n" (by decide))) (.blank c!"\n/\r\n  GET A" [])

example : (match routeConfig (asciiOnly false) c!"use a;\r\n/\r\n\r\n\n  GET Foo\r\n    [q: T]\r\n  bar\n\n    GET Bar\n\n\n" with
    | .ok rest c => decide (rest = [] ∧ c.headers = [⟨c!"use a;"⟩] ∧ c.routes.resources.length = 1)
    | _ => false) = true := by decide +kernel

/-- Only empty lines are ignored: a line of blanks is not. -/
example : (match routeConfig (asciiOnly false) c!"/\n  GET Foo\n  \n  bar\n    GET Bar\n" with
    | .ok _ _ => true | _ => false) = false := by decide +kernel

/-! ## C34 -/

/-- The model's lower-casing is Lean's. -/
theorem asciiLower_eq (c : Char) : asciiLower c = c.toLower := by
  apply Char.toNat_inj.1
  rw [toNat_toLower]
  unfold asciiLower
  have hiff : ('A' ≤ c ∧ c ≤ 'Z') ↔ AsciiUpper c := Iff.rfl
  by_cases h : AsciiUpper c
  · rw [if_pos (hiff.2 h), if_pos h]
    have h2 := h.2
    have hv : (c.toNat + 32).isValidChar := .inl (by omega)
    rw [Char.ofNat, dif_pos hv]
    rfl
  · rw [if_neg (fun h' => h (hiff.1 h')), if_neg h]

theorem tagNoCase_iff {t i rest s : Str} : pTagNoCase t i = .ok rest s ↔ i = s ++ rest ∧ SameLetters s t := by
  have hmap : ∀ l : Str, l.map asciiLower = l.map Char.toLower := fun l =>
    List.map_congr_left fun c _ => asciiLower_eq c
  unfold pTagNoCase SameLetters
  rw [hmap, hmap]
  constructor
  · intro h
    split at h
    · rename_i hp
      cases h
      refine ⟨(List.take_append_drop ..).symm, ?_⟩
      have := List.prefix_iff_eq_take.1 (List.isPrefixOf_iff_prefix.1 hp)
      rw [List.length_map, ← List.map_take] at this
      exact this.symm
    · cases h
  · rintro ⟨rfl, h⟩
    have hlen : s.length = t.length := by simpa using congrArg List.length h
    rw [if_pos]
    · rw [← hlen]; simp
    · rw [List.isPrefixOf_iff_prefix, List.map_append, h]; exact List.prefix_append _ _

/-- The keywords are told apart by their first two letters. -/
theorem verb_unique {m m' : Method} {v v' r r' : Str} (h : v ++ r = v' ++ r') (hv : SameLetters v m.display)
    (hv' : SameLetters v' m'.display) : m = m' ∧ v = v' := by
  have hm : m.display.map Char.toLower ++ r.map Char.toLower =
      m'.display.map Char.toLower ++ r'.map Char.toLower := by
    rw [← hv, ← hv', ← List.map_append, ← List.map_append, h]
  have he : m = m' := by
    cases m <;> cases m' <;> first | rfl | (revert hm; simp [Method.display])
  subst he
  refine ⟨rfl, (List.append_inj h ?_).1⟩
  have h1 := congrArg List.length hv
  have h2 := congrArg List.length hv'
  simp only [List.length_map] at h1 h2
  omega

/-- **C34.** The keyword parser accepts exactly the letter-case variants of the four verbs, before any
continuation. -/
theorem C34_verbs (i rest : Str) (m : Method) :
    pMethod cfg i = .ok rest m ↔ ∃ v, i = v ++ rest ∧ SameLetters v m.display := by
  have hmap : ∀ (m' : Method) (t : Str) (rest : Str) (a : Method), SameLetters t m'.display →
      (pMap (fun _ => m') (pTagNoCase t) i = .ok rest a ↔
        a = m' ∧ ∃ v, i = v ++ rest ∧ SameLetters v m'.display) := by
    intro m' t rest a ht
    unfold pMap pBind
    constructor
    · intro h
      cases he : pTagNoCase t i with
      | ok r s =>
        rw [he] at h
        cases h
        obtain ⟨h1, h2⟩ := tagNoCase_iff.1 he
        exact ⟨rfl, s, h1, h2.trans ht⟩
      | error c => rw [he] at h; cases h
      | failure c => rw [he] at h; cases h
    · rintro ⟨rfl, v, h1, h2⟩
      rw [tagNoCase_iff.2 ⟨h1, h2.trans ht.symm⟩]; rfl
  have g := fun r a => hmap .get c!"get" r a (by unfold SameLetters; decide)
  have po := fun r a => hmap .post c!"post" r a (by unfold SameLetters; decide)
  have pu := fun r a => hmap .put c!"put" r a (by unfold SameLetters; decide)
  have de := fun r a => hmap .delete c!"delete" r a (by unfold SameLetters; decide)
  constructor
  · intro h
    obtain ⟨p, hp, hpi⟩ := alt_ok h
    simp only [List.mem_cons, List.not_mem_nil, or_false] at hp
    rcases hp with rfl | rfl | rfl | rfl
    · obtain ⟨rfl, hr⟩ := (g _ _).1 hpi; exact hr
    · obtain ⟨rfl, hr⟩ := (po _ _).1 hpi; exact hr
    · obtain ⟨rfl, hr⟩ := (pu _ _).1 hpi; exact hr
    · obtain ⟨rfl, hr⟩ := (de _ _).1 hpi; exact hr
  · rintro ⟨v, rfl, hv⟩
    have hne : ∀ (m' : Method) (t : Str), SameLetters t m'.display → m' ≠ m →
        ∃ c, pMap (fun _ => m') (pTagNoCase t) (v ++ rest) = .error c := by
      intro m' t ht hm
      cases he : pTagNoCase t (v ++ rest) with
      | ok r s =>
        obtain ⟨h1, h2⟩ := tagNoCase_iff.1 he
        exact absurd (verb_unique h1 hv (h2.trans ht)).1.symm hm
      | error c => exact ⟨c, by simp [pMap, pBind, he]⟩
      | failure c =>
        unfold pTagNoCase at he
        split at he <;> cases he
    cases m
    · have h1 := (g rest .get).2 ⟨rfl, v, rfl, hv⟩
      unfold pMethod pAlt
      rw [h1]
    · obtain ⟨_, h1⟩ := hne .get c!"get" (by unfold SameLetters; decide) (by decide)
      have h2 := (po rest .post).2 ⟨rfl, v, rfl, hv⟩
      simp only [pMethod, pAlt, h1, h2]
    · obtain ⟨_, h1⟩ := hne .get c!"get" (by unfold SameLetters; decide) (by decide)
      obtain ⟨_, h2⟩ := hne .post c!"post" (by unfold SameLetters; decide) (by decide)
      have h3 := (pu rest .put).2 ⟨rfl, v, rfl, hv⟩
      simp only [pMethod, pAlt, h1, h2, h3]
    · obtain ⟨_, h1⟩ := hne .get c!"get" (by unfold SameLetters; decide) (by decide)
      obtain ⟨_, h2⟩ := hne .post c!"post" (by unfold SameLetters; decide) (by decide)
      obtain ⟨_, h3⟩ := hne .put c!"put" (by unfold SameLetters; decide) (by decide)
      have h4 := (de rest .delete).2 ⟨rfl, v, rfl, hv⟩
      simp only [pMethod, pAlt, h1, h2, h3, h4]

/-- **C34, lines.** A resource line reads the same in every letter case of its verb. -/
theorem C34_resource (level : Nat) (m : Method) {v w : Str} (hv : SameLetters v m.display)
    (hw : SameLetters w m.display) (r : Str) :
    pResource cfg level (spaces level ++ (v ++ r)) = pResource cfg level (spaces level ++ (w ++ r)) := by
  unfold pResource
  rw [preceded_ok (indent_ok level _), preceded_ok (indent_ok level _)]
  conv => lhs; unfold pBind
  conv => rhs; unfold pBind
  rw [(C34_verbs cfg (v ++ r) r m).2 ⟨v, rfl, hv⟩, (C34_verbs cfg (w ++ r) r m).2 ⟨w, rfl, hw⟩]

example : SameLetters c!"dElEtE" Method.delete.display := by unfold SameLetters; decide

example : pMethod (asciiOnly true) c!"pOsT Foo\n" = .ok c!" Foo\n" .post :=
  (C34_verbs _ _ _ _).2 ⟨c!"pOsT", rfl, by unfold SameLetters; decide⟩

/-- Other words are not verbs. -/
example : ¬ ∃ rest m, pMethod (asciiOnly true) c!"PATCH Foo\n" = .ok rest m := by
  rintro ⟨rest, m, h⟩
  have : (match pMethod (asciiOnly true) c!"PATCH Foo\n" with | .ok _ _ => true | _ => false) = false := by
    decide +kernel
  rw [h] at this; cases this

end Wayfinder
