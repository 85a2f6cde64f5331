import Verif.Proofs.Viable
import Verif.Props.Errors
/-!
# C57: reports on rejected route files are right

Whatever stands before a place that is reported can be completed to an accepted file; a message that asks for something asks for
something that would be in order there and is not there.
-/

namespace Wayfinder

variable (cfg : ParseCfg)

theorem completable_iff (t : Str) : Completable cfg t ↔ ∃ u c, routeConfig cfg (t ++ u) = .ok [] c := by
  constructor
  · rintro ⟨u, c, h⟩; exact ⟨u, c, config_accepted cfg h⟩
  · rintro ⟨u, c, h⟩; exact ⟨u, c, config_inv cfg h⟩

/-- **C57, places.** Before every place that the parser names, there is the beginning of an accepted file, and the message is
right. -/
theorem C57_places (buf : Str) {c : Ctx} (h : routeConfig cfg buf = .error c ∨ routeConfig cfg buf = .failure c) :
    (∀ j k, c = .code j k → ∃ pre, buf = pre ++ j ∧ Completable cfg pre ∧ Apt cfg (Completable cfg) k pre j) ∧
    ∀ v, c = .list v → ∀ j k, (j, k) ∈ v → ∃ pre, buf = pre ++ j ∧ Completable cfg pre ∧ Apt cfg (Completable cfg) k pre j := by
  have hv := viable_file cfg buf
  constructor
  · rintro j k rfl
    exact hv j k (by rcases h with h | h <;> rw [h] <;> simp [Res.entries, Ctx.entries])
  · rintro v rfl j k hj
    exact hv j k (by rcases h with h | h <;> rw [h] <;> simpa [Res.entries, Ctx.entries] using hj)

theorem asksFor_expected {m s : Str} (h : AsksFor m s) : c!"Expected " <+: m := by
  cases h <;> exact ⟨_, rfl⟩

theorem apt_message {P : Str → Prop} {k : Kind} {pre j : Str} (h : Apt cfg P k pre j) :
    Apt cfg P (.custom (getMessage k)) pre j := by
  have dull : ∀ d : Str, ¬ c!"Expected " <+: d → d ≠ c!"In routes starting here" → Apt cfg P (.custom d) pre j := by
    intro d h1 h2 m hm
    cases hm
    refine ⟨fun s hs => absurd (asksFor_expected hs) h1, fun h => absurd ?_ h1, fun h => absurd h h2⟩
    rw [h]; exact ⟨_, rfl⟩
  cases k with
  | custom m => exact h
  | _ => exact dull _ (by decide) (by decide)

theorem apt_error (k : Kind) (P : Str → Prop) (pre j : Str) : Apt cfg P (.custom (c!"error " ++ k.debug)) pre j := by
  intro m hm
  cases hm
  refine ⟨fun s hs => ?_, fun h => ?_, fun h => ?_⟩
  · obtain ⟨r, hr⟩ := asksFor_expected hs
    cases hr
  · cases h
  · cases h

/-- **C57, reports.** The report on a rejected file consists of reports on places in it.  Before each of them there is the beginning
of an accepted file, and its message is right. -/
theorem C57_reports (dbg : Ctx → Str) (buf pre : Str) (h : ∀ rest c, routeConfig cfg buf ≠ .ok rest c) :
    ∃ ps : List (Place × Str), ps ≠ [] ∧
      showErrors dbg buf (routeConfig cfg buf) pre = some (ps.map fun p => p.1.report p.2 pre).flatten ∧
      ∀ p ∈ ps, p.1.Sound ∧ p.1.text = buf ∧ Completable cfg (p.1.above ++ p.1.left) ∧
        Apt cfg (Completable cfg) (.custom p.2) (p.1.above ++ p.1.left) p.1.rest := by
  cases he : routeConfig cfg buf with
  | ok r c => exact absurd he (h r c)
  | error c =>
    obtain ⟨j, k, rfl, p, h1, h2, h3, h4, h5⟩ := C31_error_partial cfg dbg buf pre he
    have hnil : p.above ++ p.left = [] := by
      have : (p.above ++ p.left) ++ p.rest = [] ++ p.rest := by
        have : (p.above ++ p.left) ++ p.rest = p.text := by simp [Place.text, Place.rest]
        rw [this, h2, h3]; rfl
      exact List.append_cancel_right this
    refine ⟨[(p, c!"error " ++ k.debug)], by simp, by rw [← he, h5]; simp, ?_⟩
    intro q hq
    rw [List.mem_singleton.1 hq]
    refine ⟨h1, h2, ?_, apt_error cfg _ _ _ _⟩
    simp only [hnil]
    obtain ⟨pre, _, hpre, _⟩ := (C57_places cfg buf (.inl he)).1 j k rfl
    exact completable_closed cfg [] pre hpre
  | failure c =>
    obtain ⟨v, rfl, hv⟩ := (routeConfig_shape cfg buf).2 c he
    obtain ⟨ps, h1, h2, h3⟩ := C31_report cfg dbg buf pre he
    refine ⟨ps.map fun p => (p.1, getMessage p.2), ?_, ?_, ?_⟩
    · rintro hn
      rw [List.map_eq_nil_iff.1 hn] at h1
      exact hv (by simpa using h1.symm)
    · rw [← he, h3]; simp [Function.comp_def]
    · intro q hq
      obtain ⟨p, hp, rfl⟩ := List.mem_map.1 hq
      have hmem : (p.1.rest, p.2) ∈ v := by
        have : (p.1.rest, p.2) ∈ v.reverse := by rw [← h1]; exact List.mem_map.2 ⟨p, hp, rfl⟩
        simpa using this
      obtain ⟨t, ht, hc, ha⟩ := (C57_places cfg buf (.inr he)).2 v rfl _ _ hmem
      have htt : t = p.1.above ++ p.1.left := by
        have := (h2 p hp).2
        rw [ht] at this
        have h' : (p.1.above ++ p.1.left) ++ p.1.rest = t ++ p.1.rest := by rw [← this]; simp [Place.text, Place.rest]
        exact (List.append_cancel_right h').symm
      rw [← htt]
      exact ⟨(h2 p hp).1, (h2 p hp).2, hc, apt_message cfg ha⟩

/-- **C57, errors.** If a file is rejected outside the route table, then one of three things is missing: the line with the slash, the
end of that line, the end of the file. -/
theorem C57_errors {buf j : Str} {k : Kind} (h : routeConfig cfg buf = .error (.code j k)) : ∃ pre, buf = pre ++ j ∧
    ((k = .char ∧ Completable cfg (pre ++ c!"/") ∧ ¬ c!"/" <+: j) ∨
     (k = .many1 ∧ Completable cfg (pre ++ c!"\n") ∧ Completable cfg (pre ++ c!"\r\n") ∧ ¬ c!"\n" <+: j ∧ ¬ c!"\r\n" <+: j) ∨
     (k = .eof ∧ (∃ c, FileText cfg c pre) ∧ j ≠ [])) := by
  obtain ⟨r0, t0, h0⟩ := block_exists cfg 1
  unfold routeConfig at h
  unfold pBind at h
  cases h1 : pMany0 pHeader buf with
  | error d => exact absurd h1 (many0_no_error _ _ _)
  | failure d => rw [h1] at h; cases h
  | ok r1 a1 =>
  obtain ⟨e, u, he, hu, rfl⟩ := headers_inv h1
  rw [h1] at h
  simp only at h
  cases h2 : pMany0 pLineEnding r1 with
  | error d => exact absurd h2 (many0_no_error _ _ _)
  | failure d => rw [h2] at h; cases h
  | ok r2 a2 =>
  obtain ⟨e2, he2, rfl⟩ := eols0_inv h2
  obtain ⟨a, u', ha, hu', hau⟩ := headers_eols he hu he2
  have hP : ∀ {e' r t}, Eols e' → e' ≠ [] → BlockText cfg 1 r t →
      ∃ c, FileText cfg c (e ++ u ++ (e2 ++ (c!"/" ++ (e' ++ t)))) := by
    intro e' r t h1 h2 h3
    have := FileText.mk ha hu' h1 h2 h3
    rw [← hau] at this
    exact ⟨_, by simpa using this⟩
  rw [h2] at h
  simp only at h
  cases h3 : pChar '/' r2 with
  | failure d => rw [h3] at h; cases h
  | error d =>
    rw [h3] at h
    cases h
    refine ⟨e ++ u ++ e2, ?_, .inl ⟨?_, ?_, ?_⟩⟩
    · unfold pChar at h3; split at h3
      · split at h3 <;> cases h3; simp
      · cases h3; simp
    · unfold pChar at h3; split at h3
      · split at h3 <;> cases h3; rfl
      · cases h3; rfl
    · obtain ⟨c, hc⟩ := hP eols_one (by simp) h0
      exact ⟨c!"\n" ++ t0, c, by simpa using hc⟩
    · unfold pChar at h3; split at h3
      · split at h3
        · cases h3
        · rename_i hne
          cases h3
          rintro ⟨r, hr⟩
          cases hr
          exact hne rfl
      · cases h3; rintro ⟨r, hr⟩; cases hr
  | ok r3 a3 =>
  obtain rfl := char_inv h3
  rw [h3] at h
  simp only at h
  cases h4 : pMany1 pLineEnding r3 with
  | failure d => exact absurd h4 (eols1_never_fails _ _)
  | error d =>
    rw [h4] at h
    cases h
    have hj := atStart_eols1 r3 j k (by rw [h4]; simp [Res.entries, Ctx.entries])
    have hno : ∀ t, (∃ r, pLineEnding (t ++ r3) = .ok r ()) → t ≠ [] := by
      rintro t ⟨r, hr⟩ rfl
      obtain ⟨r', l, hm⟩ := many0_lineEnding_ok r
      simp only [List.nil_append] at hr
      have hmany : pMany1 pLineEnding r3 = (pMany0 pLineEnding r).prepend [()] := by rw [many1_eq, hr]
      rw [hmany, hm] at h4
      cases h4
    refine ⟨e ++ u ++ e2 ++ c!"/", by rw [hj.1]; simp, .inr (.inl ⟨?_, ?_, ?_, ?_, ?_⟩)⟩
    · unfold pMany1 at h4
      cases hl : pLineEnding r3 with
      | ok r a => exact absurd rfl (hno [] ⟨r, hl⟩)
      | failure d => unfold pLineEnding at hl; split at hl <;> cases hl
      | error d => rw [hl] at h4; cases h4; rfl
    · obtain ⟨c, hc⟩ := hP eols_one (by simp) h0
      exact ⟨t0, c, by simpa using hc⟩
    · obtain ⟨c, hc⟩ := hP (.crlf .nil) (by simp) h0
      exact ⟨t0, c, by simpa using hc⟩
    · rintro ⟨r, hr⟩
      rw [hj.1] at hr
      exact hno [] ⟨r, by rw [← hr]; rfl⟩ rfl
    · rintro ⟨r, hr⟩
      rw [hj.1] at hr
      exact hno [] ⟨r, by rw [← hr]; rfl⟩ rfl
  | ok r4 a4 =>
  obtain ⟨e', he1, he3, rfl⟩ := eols1_inv h4
  rw [h4] at h
  simp only at h
  cases h5 : pRoutes cfg 1 r4 with
  | failure d => rw [h5] at h; cases h
  | error d => exact absurd h5 (routes_no_error cfg 1 _ _)
  | ok r5 a5 =>
  obtain ⟨t, ht, rfl⟩ := routes_inv cfg h5
  rw [h5] at h
  simp only at h
  obtain ⟨c, hc⟩ := hP he1 he3 ht
  have hj : j = r5 ∧ k = .eof ∧ r5 ≠ [] := by
    cases r5 with
    | nil => cases h
    | cons x r => cases h; exact ⟨rfl, rfl, by simp⟩
  exact ⟨e ++ u ++ (e2 ++ (c!"/" ++ (e' ++ t))), by simp [hj.1], .inr (.inr ⟨hj.2.1, ⟨c, hc⟩, by rw [hj.1]; exact hj.2.2⟩)⟩

/-- **C57, not the first fault.** The place need not be where the first fault is: here a blank behind a name is reported, and the text
can be continued behind the whole line, since blanks and ends of lines may stand before `::`. -/
theorem C57_first_fault_false : ∃ (buf a b : Str) (v : List (Str × Kind)),
    routeConfig (asciiOnly false) buf = .failure (.list v) ∧ buf = a ++ b ∧ (∀ x ∈ v, b <:+ x.1 ∧ b ≠ x.1) ∧
    Completable (asciiOnly false) a := by
  refine ⟨c!"/\n  GET Foo \n", c!"/\n  GET Foo \n", [], _, rfl, rfl, by decide, ?_⟩
  rw [completable_iff]
  refine ⟨c!"::Bar\n", _, rfl⟩

/-- A file with a forgotten colon, on its third line. -/
def colonless : Str := c!"/\n  people\n    {id u32}\n      GET Foo\n"

/-- **C57, hidden faults.** Nor need the line that is shown be at fault: nothing is reported from within the first entry of a block.
Here the colon is missing on the third line; the text up to there can be completed, with the next character it cannot; all reports show
the second line, in every reading of the macros of nom. -/
theorem C57_hidden_false (altFail early : Bool) : ∃ (a b : Str) (c : Char) (v : List (Str × Kind)),
    colonless = a ++ c :: b ∧ a.count '\n' = 2 ∧
    Completable ⟨fun _ => false, altFail, early⟩ a ∧ ¬ Completable ⟨fun _ => false, altFail, early⟩ (a ++ [c]) ∧
    routeConfig ⟨fun _ => false, altFail, early⟩ colonless = .failure (.list v) ∧
    ∀ x ∈ v, ∃ pre, colonless = pre ++ x.1 ∧ pre.count '\n' = 1 := by
  refine ⟨c!"/\n  people\n    {id ", c!"32}\n      GET Foo\n", 'u',
    [(c!"  people\n    {id u32}\n      GET Foo\n", if altFail then .alt else .many1),
     (c!"  people\n    {id u32}\n      GET Foo\n", .custom c!"Expected resources or child routes")], rfl, by decide, ?_, ?_, ?_, ?_⟩
  · rw [completable_iff]
    exact ⟨c!": u32}\n      GET Foo\n", _, by cases early <;> rfl⟩
  · rw [completable_iff]
    rintro ⟨u, c, h⟩
    cases altFail <;> cases early <;> cases h
  · cases altFail <;> cases early <;> rfl
  · intro x hx
    refine ⟨c!"/\n", ?_, by decide⟩
    simp only [List.mem_cons, List.not_mem_nil, or_false] at hx
    rcases hx with rfl | rfl <;> rfl

/-! ### Examples -/

/-- A file with a forgotten bracket, below the second child. -/
def bracketless : Str := c!"/\n  a\n    GET Foo\n  b\n    [c: T\n  d\n    GET Bar\n"

example : ∃ v, routeConfig (asciiOnly false) bracketless = .failure (.list v) ∧
    (c!"d\n    GET Bar\n", .custom c!"Expected a \"]\"") ∈ v ∧
    (c!"    [c: T\n  d\n    GET Bar\n", .custom c!"In routes starting here") ∈ v := ⟨_, rfl, by decide, by decide⟩

/-- With the bracket, a continuation that is accepted. -/
example : Completable (asciiOnly false) c!"/\n  a\n    GET Foo\n  b\n    [c: T\n  ]" :=
  (completable_iff _ _).2 ⟨c!"\n    GET Bar\n", _, rfl⟩

/-- The three readings of the macros of nom (`ParseCfg`) give different reports on a forgotten brace. -/
def braceless : Str := c!"/\n  a\n    GET Foo\n  {c: T\n    GET Bar\n"

example : ∃ v, routeConfig ⟨fun _ => false, false, false⟩ braceless = .failure (.list v) ∧
    (c!"GET Bar\n", .custom c!"Expected a \"}\"") ∈ v := ⟨_, rfl, by decide⟩
example : ∃ v, routeConfig ⟨fun _ => false, true, true⟩ braceless = .failure (.list v) ∧
    v.map Prod.snd = [.alt, .custom c!"Expected resources or child routes"] := ⟨_, rfl, by decide⟩
example : routeConfig ⟨fun _ => false, true, false⟩ braceless = .error (.code c!"  {c: T\n    GET Bar\n" .eof) := rfl

example : routeConfig (asciiOnly false) c!"use a;\n\nGET Foo" = .error (.code c!"GET Foo" .char) := rfl
example : routeConfig (asciiOnly false) c!"/ \n" = .error (.code c!" \n" .many1) := rfl
example : routeConfig (asciiOnly false) c!"/\n  GET Foo\nGET Bar\n" = .error (.code c!"GET Bar\n" .eof) := rfl

end Wayfinder
