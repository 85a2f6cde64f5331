import Verif.Proofs.Truncate
import Verif.Props.Layout
import Verif.Props.Insert
/-!
# C81: route files that end too early
-/

namespace Wayfinder

variable (cfg : ParseCfg)

/-! ## The line with the slash -/

/-- Complete lines, none of which begins with a slash. -/
def Tops (x : Str) : Prop := (x = [] ∨ x.getLast? = some '\n') ∧ ∀ u v, x = u ++ '/' :: v → u ≠ [] ∧ u.getLast? ≠ some '\n'

theorem eols_chars {e : Str} (h : Eols e) : ∀ c ∈ e, c = '\n' ∨ c = '\r' := by
  induction h with
  | nil => simp
  | lf _ ih =>
    intro c hc
    rcases List.mem_cons.1 hc with rfl | hc
    exacts [.inl rfl, ih c hc]
  | crlf _ ih =>
    intro c hc
    rcases List.mem_cons.1 hc with rfl | hc
    · exact .inr rfl
    · rcases List.mem_cons.1 hc with rfl | hc
      exacts [.inl rfl, ih c hc]

theorem eols_last {e : Str} (h : Eols e) : e = [] ∨ e.getLast? = some '\n' := by
  induction h with
  | nil => exact .inl rfl
  | @lf t h ih =>
    rcases ih with rfl | ih
    · exact .inr rfl
    · right; rw [List.getLast?_cons, ih]; rfl
  | @crlf t h ih =>
    rcases ih with rfl | ih
    · exact .inr rfl
    · right; rw [List.getLast?_cons, List.getLast?_cons, ih]; rfl

theorem tops_eols {e : Str} (h : Eols e) : Tops e := by
  refine ⟨eols_last h, fun u v hu => ?_⟩
  have := eols_chars h '/' (by simp [hu])
  simp at this

theorem last_app {x y : Str} (hx : x = [] ∨ x.getLast? = some '\n') (hy : y = [] ∨ y.getLast? = some '\n') :
    x ++ y = [] ∨ (x ++ y).getLast? = some '\n' := by
  rcases hy with rfl | hy
  · rwa [List.append_nil]
  · right
    rw [List.getLast?_append, hy]
    rfl

theorem tops_append {x y : Str} (hx : Tops x) (hy : Tops y) : Tops (x ++ y) := by
  refine ⟨last_app hx.1 hy.1, fun u v hu => ?_⟩
  rcases List.append_eq_append_iff.1 hu with ⟨w, rfl, hw⟩ | ⟨w, hw, hv⟩
  · obtain ⟨h1, h2⟩ := hy.2 w v hw
    refine ⟨by simp [h1], ?_⟩
    rw [List.getLast?_append_of_ne_nil _ h1]
    exact h2
  · cases w with
    | nil =>
      rw [List.append_nil] at hw
      subst hw
      exact absurd rfl (hy.2 [] v (by simpa using hv.symm)).1
    | cons c w =>
      simp only [List.cons_append, List.cons.injEq] at hv
      obtain ⟨rfl, hv⟩ := hv
      exact hx.2 u w hw

theorem tops_headers {hs : List Header} {h : Str} (hh : HeaderLines hs h) : Tops h := by
  induction hh with
  | nil => exact tops_eols .nil
  | @cons x hs e u hx he hne _ ih =>
    refine tops_append ⟨?_, fun u v hu => ?_⟩ ih
    · right
      rw [List.getLast?_append_of_ne_nil _ hne]
      exact (eols_last he).resolve_left hne
    · rcases List.append_eq_append_iff.1 hu with ⟨w, rfl, hw⟩ | ⟨w, hw, hv⟩
      · have := eols_chars he '/' (by simp [hw])
        simp at this
      · cases w with
        | nil =>
          have := eols_chars he '/' (by rw [← List.nil_append e, ← hv]; simp)
          simp at this
        | cons c w =>
          simp only [List.cons_append, List.cons.injEq] at hv
          obtain ⟨rfl, hv⟩ := hv
          refine ⟨?_, fun hl => ?_⟩
          · rintro rfl
            exact hx.2.2 (by rw [hw]; rfl)
          · exact (hx.2.1 '\n' (by rw [hw]; exact List.mem_append_left _ (List.mem_of_getLast? hl))).1 rfl

theorem slash_cancel {x y v w : Str} (hx : Tops x) (hy : Tops y) (h : x ++ '/' :: v = y ++ '/' :: w) : x = y ∧ v = w := by
  rcases List.append_eq_append_iff.1 h with ⟨z, rfl, hz⟩ | ⟨z, rfl, hz⟩
  · cases z with
    | nil => exact ⟨(List.append_nil _).symm, by simpa using hz⟩
    | cons c z =>
      simp only [List.cons_append, List.cons.injEq] at hz
      obtain ⟨rfl, -⟩ := hz
      obtain ⟨h1, h2⟩ := hy.2 x z rfl
      exact absurd hx.1 (by simp [h1, h2])
  · cases z with
    | nil => exact ⟨List.append_nil _, by simpa using hz.symm⟩
    | cons c z =>
      simp only [List.cons_append, List.cons.injEq] at hz
      obtain ⟨rfl, -⟩ := hz
      obtain ⟨h1, h2⟩ := hx.2 y z rfl
      exact absurd hy.1 (by simp [h1, h2])

/-! ## The property -/

/-- **C81.** A text is accepted, and each of its route lines is written on one line. What is left when it is cut at any place is accepted
with a configuration exactly if this one has the same headers, its routes are a beginning of those of the whole text, up to the end of a
resource or of one of its query parameters, and the lines of the beginning are there completely. -/
theorem C81_truncated {c c' : RouteConfig} {e h e' t rest : Str} (he : Eols e) (hh : HeaderLines c.headers h) (he' : Eols e') (hne : e' ≠ [])
    (ht : PlainLines cfg (c.routes.lines 1) t) (hi : routeConfig cfg (e ++ h ++ c!"/" ++ e' ++ t) = .ok rest c) {j k : Str}
    (hj : j ++ k = e ++ h ++ c!"/" ++ e' ++ t) : (∃ rest, routeConfig cfg j = .ok rest c') ↔
      c'.headers = c.headers ∧ Begins c'.routes c.routes ∧
      ∃ t1, j = e ++ h ++ c!"/" ++ e' ++ t1 ∧ PlainLines cfg (c'.routes.lines 1) t1 := by
  obtain ⟨_, _, _, _, -, -, -, -, -, -, hacc⟩ := (C66_lines cfg _ c).1 ⟨_, hi⟩
  have hf := full_of hacc
  constructor
  · rintro ⟨rest', hj'⟩
    have hlast := C46_final_newline cfg hj'
    obtain ⟨e2, h2, e2', t2, g1, g2, g3, g4, rfl, g6, g7⟩ := (C66_lines cfg _ c').1 ⟨_, hj'⟩
    have hf' := full_of g7
    have hne2 : t2 ≠ [] := by
      intro h0
      rw [h0] at g6
      have := lines_unique cfg g6 .nil
      rw [this] at g7
      exact g7
    have hp2 : NoEol (t2 ++ k) := by
      intro d hd
      obtain ⟨d', t2', rfl⟩ := List.exists_cons_of_ne_nil hne2
      exact (lines_plain cfg g6).2 d hd
    have hj1 : (e2 ++ h2) ++ '/' :: (e2' ++ (t2 ++ k)) = (e ++ h) ++ '/' :: (e' ++ t) := by simpa using hj
    obtain ⟨hx, hw⟩ := slash_cancel (tops_append (tops_eols g1) (tops_headers g2)) (tops_append (tops_eols he) (tops_headers hh)) hj1
    obtain ⟨rfl, rfl⟩ := eols_cancel g3 he' hp2 (lines_plain cfg (PlainLines.text cfg ht)).2 hw
    have hb : BlockText cfg 1 c.routes (t2 ++ k) := (block_lines _ _ _).2 ⟨hf, PlainLines.text cfg ht⟩
    have hhead : c'.headers = c.headers := by
      have h1 := FileText.mk g1 g2 g3 g4 hb
      have h2 := FileText.mk he hh g3 g4 hb
      rw [hx] at h1
      have h3 := C46_unambiguous cfg h1 h2
      exact (RouteConfig.mk.inj h3).1
    obtain ⟨a, b, h3, h4⟩ := plain_cut cfg ht rfl (.inr (by
      rw [List.getLast?_append_of_ne_nil _ hne2] at hlast
      exact hlast))
    have h5 := lines_unique cfg g6 (PlainLines.text cfg h4)
    subst h5
    refine ⟨hhead, (begins_iff hf 1).2 ⟨hf', b, h3.symm⟩, t2, by rw [hx], h4⟩
  · rintro ⟨h1, h2, t1, rfl, h3⟩
    refine (C66_lines cfg _ c').2 ⟨e, h, e', t1, he, h1 ▸ hh, he', hne, rfl, PlainLines.text cfg h3, ?_⟩
    exact accepts_iff.2 ⟨_, h2.full hf, rfl⟩

/-- **C81, the last line.** If the text is cut between two of its lines, what is left is accepted exactly if its last line is a resource, or a
query parameter behind a resource. -/
theorem C81_last {c : RouteConfig} {e h e' t rest : Str} (he : Eols e) (hh : HeaderLines c.headers h) (he' : Eols e') (hne : e' ≠ [])
    {a b : List (Nat × RouteLine)} (hab : c.routes.lines 1 = a ++ b) {t1 : Str} (ht1 : LinesText cfg a t1)
    (hi : routeConfig cfg (e ++ h ++ c!"/" ++ e' ++ t) = .ok rest c) :
    (∃ rest c', routeConfig cfg (e ++ h ++ c!"/" ++ e' ++ t1) = .ok rest c') ↔ EndsInResource a := by
  obtain ⟨_, _, _, _, -, -, -, -, -, -, hacc⟩ := (C66_lines cfg _ c).1 ⟨_, hi⟩
  rw [hab] at hacc
  have key : (Spot.fresh 1).accepts 1 a ↔ EndsInResource a := by
    rw [accepts_cut hacc]
    simp
  rw [← key]
  constructor
  · rintro ⟨rest', c', hj'⟩
    obtain ⟨e2, h2, e2', t2, g1, g2, g3, g4, g5, g6, g7⟩ := (C66_lines cfg _ c').1 ⟨_, hj'⟩
    have hj1 : (e2 ++ h2) ++ '/' :: (e2' ++ t2) = (e ++ h) ++ '/' :: (e' ++ t1) := by simpa using g5.symm
    obtain ⟨-, hw⟩ := slash_cancel (tops_append (tops_eols g1) (tops_headers g2)) (tops_append (tops_eols he) (tops_headers hh)) hj1
    obtain ⟨rfl, rfl⟩ := eols_cancel g3 he' (lines_plain cfg g6).2 (lines_plain cfg ht1).2 hw
    rw [lines_unique cfg ht1 g6]
    exact g7
  · intro h1
    obtain ⟨r, h2, h3⟩ := accepts_iff.1 h1
    obtain ⟨rest', h4⟩ := (C66_lines cfg _ ⟨c.headers, r⟩).2 ⟨e, h, e', t1, he, hh, he', hne, rfl, h3 ▸ ht1, h3 ▸ h1⟩
    exact ⟨rest', _, h4⟩

/-- **C81, what is declared.** The beginning declares the same, in the same order, up to one resource, the last one, which may have fewer
query parameters of its own. -/
theorem C81_declared {r' r : Routes} (h : Begins r' r) : ∃ done segs query x own more,
    r'.inOrder [] [] = done ++ [(segs, query, { x with queryParameters := own })] ∧ r.inOrder [] [] = done ++ (segs, query, x) :: more ∧
      own <+: x.queryParameters := h.inOrder [] []

/-- These lists contain the declarations and nothing else. -/
theorem C81_inOrder {r : Routes} {segs : List PathSegment} {query : List Param} {res : Resource} :
    (segs, query, res) ∈ r.inOrder [] [] ↔ Declares r segs query res := mem_inOrder

/-- **C81, lines on two lines.** That each line is written on one line is needed: `GET Users`, a newline and `::Show` is one line, for the
action `Show` of the module `Users`. Without the second half the file is accepted, and declares another action. -/
theorem C81_halves_false :
    (∃ rest, routeConfig cfg (c!"/\n  GET Users\n" ++ c!"    ::Show\n") = .ok rest ⟨[], .mk [⟨.get, [c!"Users"], c!"Show", false, []⟩] [] []⟩) ∧
    (∃ rest, routeConfig cfg c!"/\n  GET Users\n" = .ok rest ⟨[], .mk [⟨.get, [], c!"Users", false, []⟩] [] []⟩) ∧
    ¬ Begins (.mk [⟨.get, [], c!"Users", false, []⟩] [] []) (.mk [⟨.get, [c!"Users"], c!"Show", false, []⟩] [] []) := by
  obtain ⟨u, alt, early⟩ := cfg
  refine ⟨⟨[], by cases early <;> rfl⟩, ⟨[], by cases early <;> rfl⟩, fun h => ?_⟩
  have := h.lines 1
  simp [Routes.lines, Resource.lines, childLines] at this

/-- A case: the file of the README is a beginning of `/repo/example.routes`, and so are its routes. -/
example : Shipped.readmeText <+: Shipped.exampleText ∧ Begins Shipped.readme.routes Shipped.cli.routes ∧
    EndsInResource (Shipped.readme.routes.lines 1) := by
  obtain ⟨h1, h2, h3, h4⟩ := Shipped.C66_readme cfg
  have hf : Shipped.cli.routes.Full := by
    simp [Shipped.cli, Shipped.people, Shipped.books, Routes.Full, FullAll, NestedRoutes.Full]
  refine ⟨h3, (begins_iff hf 1).2 ⟨?_, h2 ▸ h4⟩, ?_⟩
  · simp [Shipped.readme, Shipped.people, Routes.Full, FullAll, NestedRoutes.Full]
  · rw [h2]
    exact ⟨Shipped.readmeLines.take 14, _, _, _, _, _, [], rfl, by simp⟩

/-- Two resources, the first with a query parameter. -/
def Demo.two : Routes :=
  .mk [⟨.get, [], c!"A", false, [⟨c!"p", c!"T"⟩]⟩] [.mk (.static c!"b") (.mk [⟨.put, [], c!"B", false, []⟩] [] [])] []

/-- A text for it. -/
theorem two_lines : PlainLines cfg (Demo.two.lines 1) (c!"  GET A" ++ c!"\n" ++ (c!"    [p: T]" ++ c!"\r\n" ++ (c!"  b" ++ c!"\n\n" ++
    (c!"    PUT B" ++ c!"\n" ++ [])))) := by
  have w : ∀ {s : Str}, s ≠ [] → (∀ c ∈ s, 'a' ≤ c ∧ c ≤ 'z' ∨ '0' ≤ c ∧ c ≤ '9' ∨ 'A' ≤ c ∧ c ≤ 'Z') → Word cfg s := ascii_word cfg
  refine .cons (.resource (v := c!"GET") (a := []) (t := c!"A") (by show List.map _ _ = List.map _ _; decide) .none
      (.name (w (by decide) (by decide)))) (by simp [OneLine]) (.lf .nil) (by simp) ?_
  refine .cons (.query (t := c!"p: T") (.mk (a := []) (b := []) (c := c!" ") (d := []) (w (by decide) (by decide)) (w (by decide) (by decide))
    (by simp [Blanks]) (by simp [Blanks]) (by simp [Blanks]) (by simp [Blanks]))) (by simp [OneLine]) (.crlf .nil) (by simp) ?_
  refine .cons (.segment (.static (w (by decide) (by decide)))) (by simp [OneLine]) (.lf (.lf .nil)) (by simp) ?_
  exact .cons (.resource (v := c!"PUT") (a := []) (t := c!"B") (by show List.map _ _ = List.map _ _; decide) .none
      (.name (w (by decide) (by decide)))) (by simp [OneLine]) (.lf .nil) (by simp) .nil

/-- It meets the hypotheses of `C81_truncated`; cut behind its first resource it is read with a beginning of the routes; cut in the middle of
a line it is not accepted, whatever the configuration. -/
example : (∃ rest, routeConfig cfg c!"/\n  GET A\n" = .ok rest ⟨[], .mk [⟨.get, [], c!"A", false, []⟩] [] []⟩) ∧
    ∀ c', ¬ ∃ rest, routeConfig cfg c!"/\n  GET A\n    [p" = .ok rest c' := by
  have hi : ∃ rest, routeConfig cfg ([] ++ [] ++ c!"/" ++ c!"\n" ++ (c!"  GET A" ++ c!"\n" ++ (c!"    [p: T]" ++ c!"\r\n" ++ (c!"  b" ++ c!"\n\n" ++
      (c!"    PUT B" ++ c!"\n" ++ []))))) = .ok rest ⟨[], Demo.two⟩ := by
    obtain ⟨u, alt, early⟩ := cfg
    exact ⟨[], by cases early <;> rfl⟩
  obtain ⟨rest, hi⟩ := hi
  have go := fun c' j k => C81_truncated cfg (c' := c') (c := ⟨[], Demo.two⟩) .nil .nil (.lf .nil) (by simp) (two_lines cfg) hi (j := j) (k := k)
  constructor
  · refine (go _ c!"/\n  GET A\n" (c!"    [p: T]" ++ c!"\r\n" ++ (c!"  b" ++ c!"\n\n" ++ (c!"    PUT B" ++ c!"\n" ++ []))) rfl).2
      ⟨rfl, .resource [] ⟨.get, [], c!"A", false, [⟨c!"p", c!"T"⟩]⟩ [] _ [] List.nil_prefix, c!"  GET A\n", rfl, ?_⟩
    exact .cons (t := c!"  GET A") (e := c!"\n") (u := []) (.resource (v := c!"GET") (a := []) (t := c!"A")
        (by show List.map _ _ = List.map _ _; decide) .none (.name (ascii_word cfg (by decide) (by decide)))) (by simp [OneLine]) (.lf .nil) (by simp) .nil
  · rintro c' ⟨rest, h⟩
    exact absurd (C46_final_newline cfg h) (by decide)

end Wayfinder
