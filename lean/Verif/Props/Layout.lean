import Verif.Proofs.Layout
import Verif.Proofs.Text
import Verif.Props.Grammar
import Verif.Props.Lines
import Verif.Props.Shipped
/-!
# C66, C67: the language reference of the README
-/

namespace Wayfinder

variable (cfg : ParseCfg)

/-! ## The route section as a sequence of lines -/

/-- **C66.** The parser accepts a text with a configuration exactly if it consists of the headers, a line `/` and the lines of the
routes. -/
theorem C66_lines (i : Str) (c : RouteConfig) : (∃ rest, routeConfig cfg i = .ok rest c) ↔
    ∃ e h e' t, Eols e ∧ HeaderLines c.headers h ∧ Eols e' ∧ e' ≠ [] ∧ i = e ++ h ++ c!"/" ++ e' ++ t ∧
      LinesText cfg (c.routes.lines 1) t ∧ (Spot.fresh 1).accepts 1 (c.routes.lines 1) := by
  rw [C46_grammar]
  constructor
  · rintro ⟨h1, h2, h3, h4, h5⟩
    obtain ⟨h6, h7⟩ := (block_lines _ _ _).1 h5
    exact ⟨_, _, _, _, h1, h2, h3, h4, rfl, h7, accepts_iff.2 ⟨_, h6, rfl⟩⟩
  · rintro ⟨e, h, e', t, h1, h2, h3, h4, rfl, h7, h8⟩
    obtain ⟨r, h9, h10⟩ := accepts_iff.1 h8
    have := lines_inj h10
    exact .mk h1 h2 h3 h4 ((block_lines _ _ _).2 ⟨this ▸ h9, h7⟩)

/-- A text is accepted exactly if it consists of any headers, a line `/` and any lines that the machine with one number accepts. -/
theorem C66_accepted (i : Str) : (∃ rest c, routeConfig cfg i = .ok rest c) ↔
    ∃ e hs h e' ls t, Eols e ∧ HeaderLines hs h ∧ Eols e' ∧ e' ≠ [] ∧ i = e ++ h ++ c!"/" ++ e' ++ t ∧
      LinesText cfg ls t ∧ (Spot.fresh 1).accepts 1 ls := by
  constructor
  · rintro ⟨rest, c, h⟩
    obtain ⟨e, h, e', t, h1⟩ := (C66_lines cfg i c).1 ⟨rest, h⟩
    exact ⟨e, c.headers, h, e', c.routes.lines 1, t, h1⟩
  · rintro ⟨e, hs, h, e', ls, t, h1, h2, h3, h4, h5, h6, h7⟩
    obtain ⟨r, h8, rfl⟩ := accepts_iff.1 h7
    obtain ⟨rest, h9⟩ := (C66_lines cfg i ⟨hs, r⟩).2 ⟨e, h, e', t, h1, h2, h3, h4, h5, h6, h7⟩
    exact ⟨rest, _, h9⟩

/-- The machine accepts exactly the lines of trees in which every block has a resource or a child (`routes ≠ []`), and every such
sequence is the one of one tree only. -/
theorem C66_tree (k : Nat) (ls : List (Nat × RouteLine)) (h : (Spot.fresh k).accepts k ls) : ∃! r : Routes, ls = r.lines k := by
  obtain ⟨r, _, rfl⟩ := accepts_iff.1 h
  exact ⟨r, rfl, fun r' h' => (lines_inj h').symm⟩

/-! ## The order of the lines -/

/-- Where a reader is after these lines. -/
theorem accepts_append {base : Nat} {s : Spot} {a b : List (Nat × RouteLine)} (h : s.accepts base (a ++ b)) :
    ∃ s' : Spot, s'.accepts base b := by
  induction a generalizing s with
  | nil => exact ⟨s, h⟩
  | cons l a ih =>
    rw [List.cons_append, accepts_cons] at h
    obtain ⟨s', _, h⟩ := h
    exact ih h

/-- Behind a segment of level `k`, the lines of higher levels leave the reader in a block of a higher level. -/
theorem after_segment {base k : Nat} {s : Spot} (hs : ∃ m, k < m ∧ (s = .fresh m ∨ s = .filled m)) {b : List (Nat × RouteLine)}
    (hb : ∀ x ∈ b, k < x.1) {j : Nat} {l : RouteLine} {d : List (Nat × RouteLine)} (hj : j ≤ k)
    (h : s.accepts base (b ++ (j, l) :: d)) : ∃ sg, l = .segment sg := by
  induction b generalizing s with
  | nil =>
    obtain ⟨m, hm, hs⟩ := hs
    rw [List.nil_append, accepts_cons] at h
    obtain ⟨s', h, _⟩ := h
    rcases hs with rfl | rfl <;> cases l <;> simp [Spot.next] at h ⊢ <;> omega
  | cons x b ih =>
    obtain ⟨n, l'⟩ := x
    rw [List.cons_append, accepts_cons] at h
    obtain ⟨s', h1, h2⟩ := h
    have hn : k < n := hb (n, l') (by simp)
    refine ih ?_ (fun y hy => hb y (by simp [hy])) h2
    obtain ⟨m, hm, hs⟩ := hs
    rcases hs with rfl | rfl <;> cases l' <;> simp only [Spot.next] at h1 <;> split at h1 <;> simp at h1 <;> subst h1
    · exact ⟨m, hm, .inl rfl⟩
    · exact ⟨m, hm, .inr rfl⟩
    · exact ⟨m + 1, by omega, .inl rfl⟩
    · exact ⟨m, hm, .inr rfl⟩
    · exact ⟨m, hm, .inr rfl⟩
    · exact ⟨n + 1, by omega, .inl rfl⟩

/-- Behind a resource of level `k`, the lines of higher levels are its query parameters. -/
theorem after_resource {base k : Nat} {b : List (Nat × RouteLine)} (hb : ∀ x ∈ b, k < x.1) {j : Nat} {l : RouteLine}
    {d : List (Nat × RouteLine)} (hj : j ≤ k) (h : (Spot.filled k).accepts base (b ++ (j, l) :: d)) :
    (∀ x ∈ b, ∃ p, x = (k + 1, .query p)) ∧ l.rank ≠ 0 ∧ (l.rank = 1 → j = k) := by
  induction b with
  | nil =>
    rw [List.nil_append, accepts_cons] at h
    obtain ⟨s', h, _⟩ := h
    refine ⟨by simp, ?_⟩
    cases l <;> simp [Spot.next] at h <;> simp [RouteLine.rank] <;> omega
  | cons x b ih =>
    obtain ⟨n, l'⟩ := x
    rw [List.cons_append, accepts_cons] at h
    obtain ⟨s', h1, h2⟩ := h
    have hn : k < n := hb (n, l') (by simp)
    cases l' with
    | query p =>
      simp only [Spot.next] at h1
      split at h1 <;> simp at h1
      rename_i hk
      subst h1; subst hk
      obtain ⟨h3, h4⟩ := ih (fun y hy => hb y (by simp [hy])) h2
      exact ⟨fun x hx => by rcases List.mem_cons.1 hx with rfl | hx; exacts [⟨p, rfl⟩, h3 x hx], h4⟩
    | resource => simp [Spot.next] at h1; omega
    | segment => simp [Spot.next] at h1; omega

/-- **C66, the order.** Two lines of one block, that is two lines of the same level with nothing but lines of higher levels between
them, are in the order query parameters, resources, nested routes. -/
theorem C66_order {base : Nat} {s : Spot} {a b d : List (Nat × RouteLine)} {k : Nat} {l l' : RouteLine}
    (h : s.accepts base (a ++ (k, l) :: (b ++ (k, l') :: d))) (hb : ∀ x ∈ b, k < x.1) : l.rank ≤ l'.rank := by
  obtain ⟨s', h⟩ := accepts_append h
  rw [accepts_cons] at h
  obtain ⟨s'', h1, h2⟩ := h
  cases l with
  | query => simp [RouteLine.rank]
  | resource =>
    have : s'' = .filled k := by
      cases s' <;> simp only [Spot.next] at h1 <;> split at h1 <;> simp at h1
      · rename_i hk; subst hk; exact h1.symm
      · rename_i hk; subst hk; exact h1.symm
    subst this
    have := (after_resource hb (Nat.le_refl k) h2).2.1
    simp only [RouteLine.rank] at this ⊢
    omega
  | segment =>
    have : s'' = .fresh (k + 1) := by
      cases s' <;> simp only [Spot.next] at h1 <;> split at h1 <;> simp at h1
      · rename_i hk; subst hk; exact h1.symm
      · exact h1.symm
    subst this
    obtain ⟨sg, rfl⟩ := after_segment ⟨k + 1, by omega, .inl rfl⟩ hb (Nat.le_refl k) h2
    exact Nat.le_refl _

/-- **C66, the indentation.** The line behind a segment is one level deeper; the line behind a resource is at most one level deeper,
and only if it is a query parameter; the line behind a query parameter is not deeper. -/
theorem C66_indent {base : Nat} {s : Spot} {a d : List (Nat × RouteLine)} {k j : Nat} {l l' : RouteLine}
    (h : s.accepts base (a ++ (k, l) :: (j, l') :: d)) :
    (l.rank = 2 → j = k + 1) ∧ (l.rank = 1 → j ≤ k ∨ (j = k + 1 ∧ l'.rank = 0)) ∧ (l.rank = 0 → j ≤ k) := by
  obtain ⟨s', h⟩ := accepts_append h
  rw [accepts_cons] at h
  obtain ⟨s'', h1, h2⟩ := h
  rw [accepts_cons] at h2
  obtain ⟨s3, h2, _⟩ := h2
  cases s' <;> cases l <;> simp only [Spot.next] at h1 <;> split at h1 <;> simp at h1 <;> subst h1 <;> cases l' <;>
    simp [Spot.next] at h2 <;> simp [RouteLine.rank] <;> omega

/-- The first line is at the level of the block, and no line is at a lower level. -/
theorem C66_base {k : Nat} {ls : List (Nat × RouteLine)} (h : (Spot.fresh k).accepts k ls) :
    (∃ l rest, ls = (k, l) :: rest) ∧ ∀ x ∈ ls, k ≤ x.1 := by
  constructor
  · cases ls with
    | nil => exact h.elim
    | cons x ls =>
      obtain ⟨j, l⟩ := x
      obtain ⟨s', h, _⟩ := accepts_cons.1 h
      cases l <;> simp only [Spot.next] at h <;> split at h <;> simp at h <;> rename_i hj <;> subst hj <;> exact ⟨_, _, rfl⟩
  · have key : ∀ (ls : List (Nat × RouteLine)) (s : Spot), (∃ m, k ≤ m ∧ (s = .fresh m ∨ s = .filled m)) → s.accepts k ls →
        ∀ x ∈ ls, k ≤ x.1 := by
      intro ls
      induction ls with
      | nil => simp
      | cons x ls ih =>
        obtain ⟨j, l⟩ := x
        rintro s ⟨m, hm, hs⟩ h
        obtain ⟨s', h1, h2⟩ := accepts_cons.1 h
        have : k ≤ j ∧ ∃ m, k ≤ m ∧ (s' = .fresh m ∨ s' = .filled m) := by
          rcases hs with rfl | rfl <;> cases l <;> simp only [Spot.next] at h1 <;> split at h1 <;> simp at h1 <;> subst h1
          · exact ⟨by omega, m, hm, .inl rfl⟩
          · exact ⟨by omega, m, hm, .inr rfl⟩
          · exact ⟨by omega, m + 1, by omega, .inl rfl⟩
          · exact ⟨by omega, m, hm, .inr rfl⟩
          · exact ⟨by omega, m, hm, .inr rfl⟩
          · exact ⟨by omega, j + 1, by omega, .inl rfl⟩
        intro y hy
        rcases List.mem_cons.1 hy with rfl | hy
        · exact this.1
        · exact ih s' this.2 h2 y hy
    exact key ls _ ⟨k, Nat.le_refl k, .inl rfl⟩ h

/-! ## The header -/

theorem oneLine_cancel {x y u v : Str} (hx : OneLine x) (hy : OneLine y) (hu : ∀ c, u.head? = some c → c = '\n' ∨ c = '\r')
    (hv : ∀ c, v.head? = some c → c = '\n' ∨ c = '\r') (h : x ++ u = y ++ v) : x = y ∧ u = v := by
  induction x generalizing y with
  | nil =>
    cases y with
    | nil => exact ⟨rfl, h⟩
    | cons d y =>
      have := hy d (by simp)
      rcases hu d (by rw [← List.nil_append u, h]; rfl) with e | e
      · exact absurd e this.1
      · exact absurd e this.2
  | cons c x ih =>
    cases y with
    | nil =>
      have := hx c (by simp)
      rcases hv c (by rw [← List.nil_append v, ← h]; rfl) with e | e
      · exact absurd e this.1
      · exact absurd e this.2
    | cons d y =>
      simp only [List.cons_append, List.cons.injEq] at h
      obtain ⟨rfl, h⟩ := h
      obtain ⟨rfl, h'⟩ := ih (fun a ha => hx a (by simp [ha])) (fun a ha => hy a (by simp [ha])) h
      exact ⟨rfl, h'⟩

theorem eols_head {e : Str} (h : Eols e) (he : e ≠ []) (u : Str) : ∀ c, (e ++ u).head? = some c → c = '\n' ∨ c = '\r' := by
  cases h with
  | nil => exact absurd rfl he
  | lf => intro c hc; simp at hc; exact .inl hc.symm
  | crlf => intro c hc; simp at hc; exact .inr hc.symm

/-- A file that begins with a line of text. -/
theorem file_line {c : RouteConfig} {x u : Str} (hx : OneLine x) (hne : x ≠ []) : FileText cfg c (x ++ '\n' :: u) ↔
    ((∃ hs, c.headers = ⟨x⟩ :: hs ∧ x.head? ≠ some '/' ∧ FileText cfg ⟨hs, c.routes⟩ u) ∨
      (x = c!"/" ∧ FileText cfg c (c!"/" ++ '\n' :: u))) := by
  constructor
  · intro hf
    generalize hi : x ++ '\n' :: u = i at hf
    obtain ⟨h1, h2, h3, h4, h5⟩ := hf
    rename_i headers routes e h e' t
    obtain ⟨d, x', rfl⟩ := List.exists_cons_of_ne_nil hne
    have hd := hx d (by simp)
    have he : e = [] := by
      cases h1 with
      | nil => rfl
      | lf => simp at hi; exact absurd hi.1 hd.1
      | crlf => simp at hi; exact absurd hi.1 hd.2
    subst he
    cases h2 with
    | nil =>
      right
      simp only [List.nil_append, List.cons_append] at hi
      obtain ⟨rfl, hi1⟩ := List.cons.inj hi
      have hx' : OneLine x' := fun a ha => hx a (by simp [ha])
      obtain ⟨rfl, hi'⟩ := oneLine_cancel (x := x') (y := []) (u := '\n' :: u) (v := e' ++ t) hx' (by simp [OneLine]) (by simp)
        (eols_head h3 h4 t) hi1
      refine ⟨rfl, ?_⟩
      have := FileText.mk (cfg := cfg) (e := []) (h := []) .nil .nil h3 h4 h5
      rw [← List.nil_append ('\n' :: u), hi']
      simpa using this
    | cons h6 h7 h8 h9 =>
      rename_i h0 hs e2 u2
      left
      simp only [List.nil_append, List.append_assoc] at hi
      obtain ⟨hx', hi'⟩ := oneLine_cancel hx h6.2.1 (by simp) (eols_head h7 h8 _) hi
      refine ⟨hs, by rw [hx'], hx' ▸ h6.2.2, ?_⟩
      cases h7 with
      | nil => exact absurd rfl h8
      | lf h7 =>
        simp only [List.cons_append, List.cons.injEq, true_and] at hi'
        rw [hi']
        simpa using FileText.mk h7 h9 h3 h4 h5
      | crlf => simp at hi'
  · rintro (⟨hs, h1, h2, h3⟩ | ⟨rfl, h⟩)
    · obtain ⟨headers, routes⟩ := c
      cases h1
      generalize hc : (⟨hs, routes⟩ : RouteConfig) = c' at h3
      obtain ⟨h4, h5, h6, h7, h8⟩ := h3
      cases hc
      have := FileText.mk (cfg := cfg) .nil (.cons (h := ⟨x⟩) ⟨hne, hx, h2⟩ (.lf h4) (by simp) h5) h6 h7 h8
      simpa using this
    · exact h

theorem file_blank {c : RouteConfig} {u : Str} : FileText cfg c ('\n' :: u) ↔ FileText cfg c u := by
  have h : ∀ i, FileText cfg c i ↔ routeConfig cfg i = .ok [] c := fun i =>
    ⟨config_accepted cfg, config_inv cfg⟩
  rw [h, h, ← leading_blank]

theorem file_header (c : RouteConfig) (t : Str) : ∀ xs : List Str, (∀ x ∈ xs, OneLine x ∧ x.head? ≠ some '/') →
    (FileText cfg c ((xs.map (· ++ c!"\n")).flatten ++ c!"/\n" ++ t) ↔
      c.headers = (xs.filter (! ·.isEmpty)).map Header.mk ∧ FileText cfg ⟨[], c.routes⟩ (c!"/\n" ++ t))
  | [], _ => by
    obtain ⟨headers, routes⟩ := c
    simp only [List.map_nil, List.flatten_nil, List.nil_append, List.filter_nil]
    constructor
    · intro h
      rcases (file_line cfg (x := c!"/") (u := t) (by simp [OneLine]) (by simp)).1 h with ⟨_, _, h', _⟩ | ⟨_, h'⟩
      · simp at h'
      · generalize hi : c!"/" ++ '\n' :: t = i at h'
        obtain ⟨h1, h2, h3, h4, h5⟩ := h'
        have hhead : headers = [] := by
          cases h1 with
          | nil =>
            cases h2 with
            | nil => rfl
            | cons h6 h7 h8 h9 =>
              rename_i h0 hs e2 u2
              exfalso
              obtain ⟨tx⟩ := h0
              rcases tx with _ | ⟨d, tx⟩
              · exact h6.1 rfl
              · simp at hi
                exact h6.2.2 (by rw [← hi.1]; rfl)
          | lf => simp at hi
          | crlf => simp at hi
        subst hhead
        exact ⟨rfl, h⟩
    · rintro ⟨h1, h2⟩
      cases h1
      exact h2
  | x :: xs, hxs => by
    have hx := hxs x (by simp)
    have ind := fun c => file_header c t xs (fun y hy => hxs y (by simp [hy]))
    by_cases hne : x = []
    · subst hne
      have := ind c
      simp only [List.map_cons, List.flatten_cons, List.nil_append, List.append_assoc, List.cons_append] at this ⊢
      rw [file_blank, this]
      simp
    · have e : ((x :: xs).map (· ++ c!"\n")).flatten ++ c!"/\n" ++ t = x ++ '\n' :: ((xs.map (· ++ c!"\n")).flatten ++ c!"/\n" ++ t) := by simp
      rw [e, file_line cfg hx.1 hne]
      have hne' : (! x.isEmpty) = true := by cases x; exact absurd rfl hne; rfl
      rw [List.filter_cons_of_pos (by simpa using hne'), List.map_cons]
      constructor
      · rintro (⟨hs, h1, _, h2⟩ | ⟨rfl, _⟩)
        · have := (ind ⟨hs, c.routes⟩).1 h2
          exact ⟨by rw [h1, show hs = _ from this.1], this.2⟩
        · exact absurd rfl hx.2
      · rintro ⟨h1, h2⟩
        exact .inl ⟨_, h1, hx.2, (ind ⟨_, c.routes⟩).2 ⟨rfl, h2⟩⟩

/-- **C67.** The lines before the first that begins with `/` are the header: they may be anything, they are kept as they
are and in their order, except that empty ones are dropped. -/
theorem C67_header_partial (c : RouteConfig) (t : Str) (xs : List Str) (hxs : ∀ x ∈ xs, OneLine x ∧ x.head? ≠ some '/') :
    (∃ rest, routeConfig cfg ((xs.map (· ++ c!"\n")).flatten ++ c!"/\n" ++ t) = .ok rest c) ↔
      c.headers = (xs.filter (! ·.isEmpty)).map Header.mk ∧ ∃ rest, routeConfig cfg (c!"/\n" ++ t) = .ok rest ⟨[], c.routes⟩ := by
  rw [C46_grammar, C46_grammar, file_header cfg c t xs hxs]

/-- The first line that begins with `/` must be this character alone, whatever follows: a header cannot contain a comment. -/
theorem C67_slash {xs : List Str} (hxs : ∀ x ∈ xs, OneLine x ∧ x.head? ≠ some '/') {x : Str} (hx : OneLine x)
    (h1 : x.head? = some '/') (h2 : x ≠ c!"/") (t : Str) :
    ¬ ∃ rest c, routeConfig cfg ((xs.map (· ++ c!"\n")).flatten ++ x ++ c!"\n" ++ t) = .ok rest c := by
  suffices h : ∀ c, ¬ FileText cfg c ((xs.map (· ++ c!"\n")).flatten ++ x ++ c!"\n" ++ t) by
    rintro ⟨rest, c, hc⟩
    exact h c ((C46_grammar cfg _ c).1 ⟨rest, hc⟩)
  induction xs with
  | nil =>
    intro c h
    have hne : x ≠ [] := by rintro rfl; simp at h1
    simp only [List.map_nil, List.flatten_nil, List.nil_append, List.append_assoc] at h
    rcases (file_line cfg hx hne).1 h with ⟨_, _, h', _⟩ | ⟨h', _⟩
    · exact h' h1
    · exact h2 h'
  | cons y ys ih =>
    intro c h
    have hy := hxs y (by simp)
    have e : ((y :: ys).map (· ++ c!"\n")).flatten ++ x ++ c!"\n" ++ t = y ++ '\n' :: ((ys.map (· ++ c!"\n")).flatten ++ x ++ c!"\n" ++ t) := by simp
    rw [e] at h
    have ih := ih fun y hy => hxs y (by simp [hy])
    by_cases hne : y = []
    · subst hne
      exact ih c ((file_blank cfg).1 h)
    · rcases (file_line cfg hy.1 hne).1 h with ⟨hs, _, _, h'⟩ | ⟨rfl, _⟩
      · exact ih _ h'
      · exact hy.2 rfl

/-- The header is passed through to the generated module, each line on a line of its own with four blanks before it. -/
theorem C67_passed {c : RouteConfig} (h : (codegen c).fail = none) :
    (c.headers.map fun x => c!"    " ++ x.text ++ c!"\n").flatten <:+: (codegen c).text := by
  obtain ⟨root, body, _, _, h3⟩ := Rust.codegen_text h
  rw [h3]
  obtain ⟨name, actions, modules⟩ := root
  rw [renderModule, renderHeaders]
  have : (fun h : Header => line 1 h.text) = fun x => c!"    " ++ x.text ++ c!"\n" := rfl
  rw [this]
  refine ⟨prelude1 ++ (configComment c.routes).text ++ prelude2, ?_⟩
  exact ⟨_, by simp only [List.append_assoc]; rfl⟩

/-- A header of three lines, one of them empty. -/
example (cfg : ParseCfg) : (∃ rest, routeConfig cfg c!"use a::B;\n\ntype C = u8;\n/\n  GET D\n" =
      .ok rest ⟨[⟨c!"use a::B;"⟩, ⟨c!"type C = u8;"⟩], .mk [⟨.get, [], c!"D", false, []⟩] [] []⟩) ∧
    ¬ ∃ rest c, routeConfig cfg c!"use a::B;\n\n/type C = u8;\n/\n  GET D\n" = .ok rest c := by
  constructor
  · refine (C67_header_partial cfg ⟨[⟨c!"use a::B;"⟩, ⟨c!"type C = u8;"⟩], .mk [⟨.get, [], c!"D", false, []⟩] [] []⟩ c!"  GET D\n"
      [c!"use a::B;", [], c!"type C = u8;"] (by simp [OneLine])).2 ⟨rfl, [], ?_⟩
    obtain ⟨u, a, e⟩ := cfg
    cases e <;> rfl
  · exact C67_slash cfg (xs := [c!"use a::B;", []]) (by simp [OneLine]) (x := c!"/type C = u8;") (by simp [OneLine]) rfl (by decide)
      c!"/\n  GET D\n"

/-! ## What the README says and what is not so -/

/-- "The header can be any Rust code": the file with the line `// types` before `use uuid::Uuid;` is rejected, and without it it is
accepted. -/
theorem C67_header_false : (¬ ∃ rest c, routeConfig cfg c!"// types\nuse uuid::Uuid;\n/\n  GET Index\n" = .ok rest c) ∧
    ∃ rest c, routeConfig cfg c!"use uuid::Uuid;\n/\n  GET Index\n" = .ok rest c := by
  refine ⟨C67_slash cfg (xs := []) (by simp) (x := c!"// types") (by simp [OneLine]) rfl (by decide) c!"use uuid::Uuid;\n/\n  GET Index\n", ?_⟩
  rcases cfg with ⟨u, a, b⟩
  exact ⟨[], ⟨[⟨c!"use uuid::Uuid;"⟩], .mk [.mk .get [] c!"Index" false []] [] []⟩, rfl⟩

/-- "Blank lines can be added anywhere": an empty line between two resources can, a line with two blanks cannot. -/
theorem C67_blank_false : (∃ rest c, routeConfig cfg c!"/\n  GET Index\n\n  PUT Put\n" = .ok rest c) ∧
    ¬ ∃ rest c, routeConfig cfg c!"/\n  GET Index\n  \n  PUT Put\n" = .ok rest c := by
  rcases cfg with ⟨u, a, b⟩
  refine ⟨⟨[], ⟨[], .mk [.mk .get [] c!"Index" false [], .mk .put [] c!"Put" false []] [] []⟩, rfl⟩, ?_⟩
  rintro ⟨rest, c, h⟩
  have : ∃ e, routeConfig ⟨u, a, b⟩ c!"/\n  GET Index\n  \n  PUT Put\n" = .error e := by
    cases a <;> cases b <;> exact ⟨_, rfl⟩
  obtain ⟨e, he⟩ := this
  rw [he] at h
  cases h

end Wayfinder

namespace Wayfinder.Shipped

/-- What the route file in the README says. -/
def readme : RouteConfig where
  headers := [⟨c!"use uuid::Uuid;"⟩]
  routes := .mk [] [.mk (.static c!"users") (.mk [⟨.get, [c!"People"], c!"Index", true, []⟩] [] []),
    .mk (.static c!"people") people.routes] [⟨c!"lang", c!"String"⟩]

/-- Its lines. -/
def readmeLines : List (Nat × RouteLine) :=
  [(1, .query ⟨c!"lang", c!"String"⟩),
   (1, .segment (.static c!"users")),
   (2, .resource .get true [c!"People"] c!"Index"),
   (1, .segment (.static c!"people")),
   (2, .resource .get false [c!"People"] c!"Index"),
   (2, .resource .post false [c!"People"] c!"Create"),
   (2, .segment (.static c!"new")),
   (3, .resource .get false [c!"People"] c!"New"),
   (2, .segment (.dynamic ⟨c!"id", c!"Uuid"⟩)),
   (3, .resource .get false [c!"People"] c!"Show"),
   (3, .resource .put false [c!"People"] c!"Update"),
   (4, .query ⟨c!"name", c!"String"⟩),
   (3, .resource .delete false [c!"People"] c!"Destroy"),
   (3, .segment (.static c!"edit")),
   (4, .resource .get false [c!"People"] c!"Edit")]

set_option maxRecDepth 100000 in
theorem readme_read (cfg : ParseCfg) : routeConfig cfg readmeText = .ok [] readme := by
  obtain ⟨u, a, e⟩ := cfg
  cases e <;> rfl

/-- The route file in the README is accepted; it has these lines; and the lines of `/repo/example.routes`, which has the same
beginning, are these and more. -/
theorem C66_readme (cfg : ParseCfg) : routeConfig cfg readmeText = .ok [] readme ∧ readme.routes.lines 1 = readmeLines ∧
    readmeText <+: exampleText ∧ readmeLines <+: cli.routes.lines 1 := by
  refine ⟨readme_read cfg, rfl, ⟨exampleText.drop readmeText.length, by decide +kernel⟩, ⟨_, rfl⟩⟩

/-- The machine accepts the lines of the README. -/
theorem readme_accepts : (Spot.fresh 1).accepts 1 readmeLines := by
  have h := (C66_lines (asciiOnly false) readmeText readme).1 ⟨_, readme_read _⟩
  obtain ⟨_, _, _, _, _, _, _, _, _, _, h⟩ := h
  exact h

/-- So C66 applies to them: they are the lines of one tree, `Update` and `Destroy`, with a query parameter
between them, are in order, and the line behind the segment `new` is one level deeper. -/
example : (∃! r : Routes, readmeLines = r.lines 1) ∧ (∀ x ∈ readmeLines, 1 ≤ x.1) ∧
    (RouteLine.resource .put false [c!"People"] c!"Update").rank ≤ (RouteLine.resource .delete false [c!"People"] c!"Destroy").rank ∧
    ((RouteLine.segment (.static c!"new")).rank = 2 → 3 = 2 + 1) :=
  ⟨C66_tree 1 _ readme_accepts, (C66_base readme_accepts).2,
    C66_order (a := readmeLines.take 10) (b := [(4, .query ⟨c!"name", c!"String"⟩)]) (d := readmeLines.drop 13) (k := 3) readme_accepts
      (by simp),
    (C66_indent (a := readmeLines.take 6) (d := readmeLines.drop 8) (k := 2) (j := 3) readme_accepts).1⟩

theorem readme_supported : Supported readme.routes (bodyOf readme.routes) := supported_of (by decide +kernel)
theorem readme_plain : PlainTexts readme.routes := plainTexts_of (by decide)

/-- The matcher of the README's file answers as the one of `/repo/example.routes`, except below `/books`. -/
theorem C66_readme_answers {W : World} {path m : Bytes}
    (hd : callMatchRoute W (bodyOf cli.routes) path m ≠ callMatchRoute W (bodyOf readme.routes) path m) :
    ∃ more, cut (stripSlash path) = bytesOf c!"books" :: more := by
  obtain ⟨above, caps, more, h⟩ := C58_static (sub := books.routes) (s := c!"books") (.here readme.routes cli.routes)
    (.mk [] [.mk (.static c!"users") (.mk [⟨.get, [c!"People"], c!"Index", true, []⟩] [] []), .mk (.static c!"people") people.routes] []
      [⟨c!"lang", c!"String"⟩]) rfl readme_supported readme_plain cli_supported cli_plain hd
  unfold ComesBy at h
  generalize hc : cut (stripSlash path) = ps at h
  cases h with
  | here => exact ⟨more, rfl⟩

end Wayfinder.Shipped
