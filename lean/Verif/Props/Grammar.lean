import Verif.Proofs.Grammar
/-!
# C46: the parser accepts exactly the grammar of route files
-/

namespace Wayfinder

variable (cfg : ParseCfg)

/-- **C46.** The parser accepts a text, with a configuration, exactly if the text is a text of this
configuration according to the grammar. -/
theorem C46_grammar (i : Str) (c : RouteConfig) : (∃ rest, routeConfig cfg i = .ok rest c) ↔ FileText cfg c i := by
  constructor
  · rintro ⟨rest, h⟩
    have := C30_consumes cfg h
    subst this
    exact config_inv cfg h
  · exact fun h => ⟨[], config_accepted cfg h⟩

/-- The grammar is unambiguous: a text belongs to at most one configuration. -/
theorem C46_unambiguous {i : Str} {c c' : RouteConfig} (h : FileText cfg c i) (h' : FileText cfg c' i) : c = c' := by
  have h1 := config_accepted cfg h
  rw [config_accepted cfg h'] at h1
  exact (Res.ok.inj h1).2.symm

/-! ### Only the alphabet matters -/

section
variable {cfg} {cfg' : ParseCfg} (hw : ∀ s, Word cfg s → Word cfg' s)

include hw

theorem paramText_mono {p : Param} {t : Str} (h : ParamText cfg p t) : ParamText cfg' p t := by
  obtain ⟨h1, h2, ha, hb, hc, hd⟩ := h
  exact .mk (hw _ h1) (hw _ h2) ha hb hc hd

theorem segmentText_mono {s : PathSegment} {t : Str} (h : SegmentText cfg s t) : SegmentText cfg' s t := by
  cases h with
  | static h => exact .static (hw _ h)
  | dynamic h => exact .dynamic (paramText_mono hw h)

theorem queryLines_mono {level : Nat} {ps : List Param} {t : Str} (h : QueryLines cfg level ps t) :
    QueryLines cfg' level ps t := by
  induction h with
  | nil => exact .nil
  | cons h he hne _ ih => exact .cons (paramText_mono hw h) he hne ih

theorem targetText_mono {ms : List Str} {x t : Str} (h : TargetText cfg ms x t) : TargetText cfg' ms x t := by
  induction h with
  | name h => exact .name (hw _ h)
  | module h ha hb _ ih => exact .module (hw _ h) ha hb ih

theorem resourceTexts_mono {level : Nat} {xs : List Resource} {t : Str} (h : ResourceTexts cfg level xs t) :
    ResourceTexts cfg' level xs t := by
  induction h with
  | nil => exact .nil
  | cons h _ ih =>
    obtain ⟨hv, ha, ht, he, hne, hu⟩ := h
    exact .cons (.mk hv ha (targetText_mono hw ht) he hne (queryLines_mono hw hu)) ih

theorem blockText_mono {level : Nat} {r : Routes} {t : Str} (h : BlockText cfg level r t) :
    BlockText cfg' level r t := by
  refine BlockText.rec (motive_1 := fun level r t _ => BlockText cfg' level r t)
    (motive_2 := fun level ns t _ => ChildTexts cfg' level ns t) ?_ ?_ ?_ h
  · intro level qs rs ns t u v hq hu hv hne ih
    exact .mk (queryLines_mono hw hq) (resourceTexts_mono hw hu) ih hne
  · exact .nil
  · intro level seg r ns s e t u hs he hne ht hu ih1 ih2
    exact .cons (segmentText_mono hw hs) he hne ih1 ih2

theorem fileText_mono {c : RouteConfig} {t : Str} (h : FileText cfg c t) : FileText cfg' c t := by
  obtain ⟨he, hh, he', hne, ht⟩ := h
  exact .mk he hh he' hne (blockText_mono hw ht)
end

/-- **C46, the open questions about nom.** Which texts are accepted, and with which configuration, does not
depend on whether `alt_complete!` goes on after a failure, nor on whether `return_error!` returns from the function. -/
theorem C46_alternatives (uni : Char → Bool) (b b' e e' : Bool) (i : Str) (c : RouteConfig) :
    (∃ rest, routeConfig ⟨uni, b, e⟩ i = .ok rest c) ↔ ∃ rest, routeConfig ⟨uni, b', e'⟩ i = .ok rest c := by
  rw [C46_grammar, C46_grammar]
  have key : ∀ b b' e e' s, Word ⟨uni, b, e⟩ s → Word ⟨uni, b', e'⟩ s := fun _ _ _ _ _ h => h
  exact ⟨fileText_mono (key b b' e e'), fileText_mono (key b' b e' e)⟩

/-! ### Consequences that can be read off the grammar -/

theorem Eols.last {e : Str} (h : Eols e) : e = [] ∨ e.getLast? = some '\n' := by
  induction h with
  | nil => exact .inl rfl
  | @lf t _ ih => rcases ih with rfl | ih
                  · exact .inr rfl
                  · right; cases t with
                    | nil => rfl
                    | cons c t => rw [List.getLast?_cons_cons]; exact ih
  | @crlf t _ ih => rcases ih with rfl | ih
                    · exact .inr rfl
                    · right; cases t with
                      | nil => rfl
                      | cons c t => rw [List.getLast?_cons_cons, List.getLast?_cons_cons]; exact ih

theorem last_append {a b : Str} (ha : a.getLast? = some '\n') (hb : b = [] ∨ b.getLast? = some '\n') :
    (a ++ b).getLast? = some '\n' := by
  rcases hb with rfl | hb
  · simpa using ha
  · rw [List.getLast?_append, hb]; rfl

theorem last_append' (a : Str) {b : Str} (hb : b.getLast? = some '\n') : (a ++ b).getLast? = some '\n' := by
  rw [List.getLast?_append, hb]; rfl

theorem QueryLines.last {level : Nat} {ps : List Param} {t : Str} (h : QueryLines cfg level ps t) :
    t = [] ∨ t.getLast? = some '\n' := by
  induction h with
  | nil => exact .inl rfl
  | cons _ he hne _ ih => exact .inr (last_append (last_append' _ (he.last.resolve_left hne)) ih)

theorem ResourceTexts.last {level : Nat} {xs : List Resource} {t : Str} (h : ResourceTexts cfg level xs t) :
    (xs = [] ∧ t = []) ∨ t.getLast? = some '\n' := by
  induction h with
  | nil => exact .inl ⟨rfl, rfl⟩
  | cons h _ ih =>
    obtain ⟨_, _, _, he, hne, hu⟩ := h
    refine .inr (last_append (last_append (last_append' _ (he.last.resolve_left hne)) hu.last) ?_)
    rcases ih with ⟨_, rfl⟩ | ih
    · exact .inl rfl
    · exact .inr ih

theorem BlockText.last {level : Nat} {r : Routes} {t : Str} (h : BlockText cfg level r t) :
    t.getLast? = some '\n' := by
  refine BlockText.rec (motive_1 := fun level r t _ => t.getLast? = some '\n')
    (motive_2 := fun level ns t _ => (ns = [] ∧ t = []) ∨ t.getLast? = some '\n') ?_ ?_ ?_ h
  · intro level qs rs ns t u v hq hu hv hne ih
    rcases ih with ⟨rfl, rfl⟩ | ih
    · rcases hu.last with ⟨rfl, rfl⟩ | h
      · simp at hne
      · exact last_append (last_append' _ h) (.inl rfl)
    · exact last_append' _ ih
  · intro _; exact .inl ⟨rfl, rfl⟩
  · intro level seg r ns s e t u hs he hne ht hu ih1 ih2
    refine .inr (last_append (last_append' _ ih1) ?_)
    rcases ih2 with ⟨_, rfl⟩ | h
    · exact .inl rfl
    · exact .inr h

/-- **C46, the last line.** A text is accepted only if it ends with a line feed. -/
theorem C46_final_newline {i : Str} {c : RouteConfig} {rest : Str} (h : routeConfig cfg i = .ok rest c) :
    i.getLast? = some '\n' := by
  obtain ⟨_, _, _, _, ht⟩ := (C46_grammar cfg i c).1 ⟨rest, h⟩
  exact last_append' _ ht.last

/-! ### A text that the printer does not produce -/

/-- Blank lines at the beginning, carriage returns, a lower-case verb, blanks and line feeds inside brackets,
braces and around the arrow. -/
def looseText : Str :=
  c!"\n\r\n" ++ c!"use a;\n" ++ c!"/\r\n\n" ++ (c!"  [\tq:\nT]\n" ++ c!"  geT \t-> b\n:: go\n\n" ++
    (c!"  {id :u32 }\n" ++ c!"    PUT set\n"))

/-- The configuration of this text. -/
def looseConfig : RouteConfig :=
  ⟨[⟨c!"use a;"⟩], .mk [⟨.get, [c!"b"], c!"go", true, []⟩]
    [.mk (.dynamic ⟨c!"id", c!"u32"⟩) (.mk [⟨.put, [], c!"set", false, []⟩] [] [])] [⟨c!"q", c!"T"⟩]⟩

theorem ascii_word {s : Str} (h : s ≠ []) (h' : ∀ c ∈ s, 'a' ≤ c ∧ c ≤ 'z' ∨ '0' ≤ c ∧ c ≤ '9' ∨ 'A' ≤ c ∧ c ≤ 'Z') :
    Word cfg s := by
  refine ⟨h, fun c hc => ?_⟩
  rcases h' c hc with h1 | h1 | h1
  · exact .inr (.inl h1)
  · exact .inr (.inr (.inr (.inl h1)))
  · exact .inr (.inr (.inl h1))

/-- A concrete case of C46, derived from the rules of the grammar. -/
theorem looseText_file : FileText cfg looseConfig looseText := by
  have hq : QueryLines cfg 1 [⟨c!"q", c!"T"⟩] c!"  [\tq:\nT]\n" :=
    .cons (t := c!"\tq:\nT") (e := c!"\n") (u := [])
      (.mk (a := c!"\t") (b := []) (c := c!"\n") (d := []) (ascii_word cfg (by decide) (by decide))
        (ascii_word cfg (by decide) (by decide)) (by simp [Blanks]) (by simp [Blanks]) (by simp [Blanks])
        (by simp [Blanks])) (.lf .nil) (by simp) .nil
  have hr : ResourceText cfg 1 ⟨.get, [c!"b"], c!"go", true, []⟩ c!"  geT \t-> b\n:: go\n\n" :=
    .mk (v := c!"geT") (a := c!"\t-> ") (t := c!"b\n:: go") (e := c!"\n\n") (u := []) (by show List.map _ _ = List.map _ _; decide)
      (.arrow (a := c!"\t") (b := c!" ") (by simp [Blanks]) (by simp [Blanks]))
      (.module (m := c!"b") (a := c!"\n") (b := c!" ") (ascii_word cfg (by decide) (by decide)) (by simp [Blanks])
        (by simp [Blanks]) (.name (ascii_word cfg (by decide) (by decide)))) (.lf (.lf .nil)) (by simp) .nil
  have hs : ResourceText cfg 2 ⟨.put, [], c!"set", false, []⟩ c!"    PUT set\n" :=
    .mk (v := c!"PUT") (a := []) (t := c!"set") (e := c!"\n") (u := []) (by show List.map _ _ = List.map _ _; decide) .none
      (.name (ascii_word cfg (by decide) (by decide))) (.lf .nil) (by simp) .nil
  have hb : BlockText cfg 2 (.mk [⟨.put, [], c!"set", false, []⟩] [] []) c!"    PUT set\n" :=
    .mk (t := []) (v := []) .nil (.cons (u := []) hs .nil) .nil (by simp)
  have hc : ChildTexts cfg 1 [.mk (.dynamic ⟨c!"id", c!"u32"⟩) (.mk [⟨.put, [], c!"set", false, []⟩] [] [])]
      (c!"  {id :u32 }\n" ++ c!"    PUT set\n") :=
    .cons (s := c!"{id :u32 }") (e := c!"\n") (t := c!"    PUT set\n") (u := [])
      (.dynamic (t := c!"id :u32 ") (.mk (a := []) (b := c!" ") (c := []) (d := c!" ")
        (ascii_word cfg (by decide) (by decide)) (ascii_word cfg (by decide) (by decide)) (by simp [Blanks])
        (by simp [Blanks]) (by simp [Blanks]) (by simp [Blanks]))) (.lf .nil) (by simp) hb .nil
  exact .mk (e := c!"\n\r\n") (h := c!"use a;\n") (e' := c!"\r\n\n") (.lf (.crlf .nil))
    (.cons (h := ⟨c!"use a;"⟩) (e := c!"\n") (u := []) ⟨by simp, by decide, by simp⟩ (.lf .nil) (by simp) .nil)
    (.crlf (.lf .nil)) (by simp) (.mk hq (.cons (u := []) hr .nil) hc (by simp))

/-- So the parser accepts it, for every choice about nom and Unicode; and without its last line feed it
does not. -/
example : (∃ rest, routeConfig cfg looseText = .ok rest looseConfig) ∧
    ¬∃ rest c, routeConfig cfg looseText.dropLast = .ok rest c := by
  refine ⟨(C46_grammar cfg _ _).2 (looseText_file cfg), ?_⟩
  rintro ⟨rest, c, h⟩
  have := C46_final_newline cfg h
  exact absurd this (by decide)

end Wayfinder
