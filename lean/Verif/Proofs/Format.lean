import Verif.Spec.Format
/-!
# Comparing a text with tokens

The text is read, and the changes of rustfmt are undone, one character after the other, so that long texts can be compared.
-/

namespace Wayfinder.Rust

/-- The tokens that are expected after those of `ts`. -/
def feed (l : Layout) : List Tok → List Tok → Option (Layout × List Tok)
  | [], es => some (l, es)
  | t :: ts, es =>
    match l.step t with
    | (us, l') =>
      match eat us es with
      | none => none
      | some es => feed l' ts es

/-- Compare a text with the expected tokens. -/
def sameToks : LexState → Layout → Str → List Tok → Bool
  | st, l, [], es =>
    match flush st with
    | none => false
    | some ts =>
      match feed l ts es with
      | none => false
      | some (l', es) => decide (l'.flush = es)
  | st, l, c :: s, es =>
    match lexStep st c with
    | (ts, st') =>
      match feed l ts es with
      | none => false
      | some (l', es) => sameToks st' l' s es

theorem eat_some : ∀ {us es rest : List Tok}, eat us es = some rest → es = us ++ rest
  | [], es, rest, h => by simpa [eat] using h
  | _ :: _, [], _, h => by simp [eat] at h
  | u :: us, e :: es, rest, h => by
    simp only [eat] at h
    split at h
    · rename_i he
      rw [eat_some h, he, List.cons_append]
    · cases h

theorem feed_some : ∀ {ts : List Tok} {l l' : Layout} {es rest : List Tok}, feed l ts es = some (l', rest) →
    ∀ more, canonFrom l' more = rest → canonFrom l (ts ++ more) = es
  | [], l, l', es, rest, h, more, e => by
    simp only [feed, Option.some.injEq, Prod.mk.injEq] at h
    rw [List.nil_append, h.1, h.2, e]
  | t :: ts, l, l', es, rest, h, more, e => by
    simp only [feed] at h
    split at h
    · cases h
    · rename_i es' he
      rw [List.cons_append, canonFrom, feed_some h more e, eat_some he]

theorem sameToks_some : ∀ {s : Str} {st : LexState} {l : Layout} {es : List Tok}, sameToks st l s es = true →
    ∃ ts, (flush (run st s).2).map ((run st s).1 ++ ·) = some ts ∧ canonFrom l ts = es
  | [], st, l, es, h => by
    simp only [sameToks] at h
    split at h
    · cases h
    · rename_i ts hf
      split at h
      · cases h
      · rename_i l' rest he
        refine ⟨ts, by simp [run, hf], ?_⟩
        have := feed_some he [] (by simpa [canonFrom] using h)
        simpa using this
  | c :: s, st, l, es, h => by
    simp only [sameToks] at h
    split at h
    · cases h
    · rename_i l' rest he
      obtain ⟨ts, h1, h2⟩ := sameToks_some h
      refine ⟨(lexStep st c).1 ++ ts, ?_, feed_some he ts h2⟩
      simp only [run]
      cases hf : flush (run (lexStep st c).2 s).2 with
      | none => simp [hf] at h1
      | some u =>
        simp only [hf, Option.map_some, Option.some.injEq] at h1 ⊢
        rw [List.append_assoc, h1]

/-- A text that has the expected tokens, up to layout. -/
theorem canon_of {s : Str} {es : List Tok} (h : sameToks .neutral ⟨[], .op [], .nothing⟩ s es = true) :
    ∃ ts, lex s = some ts ∧ canon ts = es := sameToks_some h

theorem readFormatted_eq {hs ts : List Tok} {s s' : Str} (h : lex s = some ts) (h' : lex s' = some (canon ts)) :
    readFormatted hs s = readText hs s' := by
  unfold readFormatted readText
  rw [h, h']
  rfl

/-! ## What `canon` changes -/

theorem put_solid (l : Layout) (t : Tok) : (l.put t).1.filter Tok.solid = [t].filter Tok.solid := by
  unfold Layout.put
  split
  · rename_i h
    subst h
    split <;> simp [Tok.solid]
  · split
    · rename_i h
      subst h
      split <;> (try split) <;> simp [Tok.solid]
    · rfl

theorem step_solid (l : Layout) (t : Tok) : (l.step t).1.filter Tok.solid = [t].filter Tok.solid := by
  have hc : Tok.solid (.op [',']) = false := by decide
  have hb : Tok.solid (.op ['{']) = false := by decide
  unfold Layout.step
  split
  · exact put_solid _ _
  · split
    · rfl
    · simp only [List.filter_cons, hb, Bool.false_eq_true, if_false, put_solid]
  · split
    · rename_i h
      simp [h, hc]
    · exact put_solid _ _
  · split
    · rename_i h
      simp [h, hc]
    · exact put_solid _ _
  · split
    · exact put_solid _ _
    · simp only [List.filter_cons, hc, Bool.false_eq_true, if_false, put_solid]

/-- Undoing the changes of rustfmt adds and removes only commas and braces. -/
theorem canonFrom_solid : ∀ (ts : List Tok) (l : Layout), (canonFrom l ts).filter Tok.solid = ts.filter Tok.solid
  | [], l => by
    unfold canonFrom Layout.flush
    split <;> decide
  | t :: ts, l => by
    rw [canonFrom, List.filter_append, step_solid, canonFrom_solid ts, ← List.filter_append, List.singleton_append]

/-! ## Comparing statements -/

mutual
/-- Are these the same statement? -/
def sameStmt : Stmt → Stmt → Bool
  | .blank, .blank => true
  | .letStart, .letStart => true
  | .addI n, .addI n' => n == n'
  | .retNotFound, .retNotFound => true
  | .ifThen c b, .ifThen c' b' => decide (c = c') && sameBlock b b'
  | .matchMethod as, .matchMethod as' => decide (as = as')
  | .matchPath n as, .matchPath n' as' => n == n' && sameArms as as'
  | .whileScan, .whileScan => true
  | .letText, .letText => true
  | .letParam x t, .letParam x' t' => decide (x = x') && decide (t = t')
  | _, _ => false
/-- Are these the same arm? -/
def sameArm : Arm → Arm → Bool
  | .bytes p b, .bytes p' b' => decide (p = p') && sameBlock b b'
  | .wildNotFound, .wildNotFound => true
  | .wildNothing, .wildNothing => true
  | _, _ => false
/-- Are these the same statements? -/
def sameBlock : List Stmt → List Stmt → Bool
  | [], [] => true
  | s :: b, s' :: b' => sameStmt s s' && sameBlock b b'
  | _, _ => false
/-- Are these the same arms? -/
def sameArms : List Arm → List Arm → Bool
  | [], [] => true
  | a :: as, a' :: as' => sameArm a a' && sameArms as as'
  | _, _ => false
end

mutual
theorem sameStmt_eq (s s' : Stmt) (h : sameStmt s s' = true) : s = s' := by
  cases s <;> cases s' <;> simp only [sameStmt, Bool.and_eq_true, decide_eq_true_eq, beq_iff_eq, Bool.false_eq_true] at h ⊢
  · rw [h]
  · rw [h.1, sameBlock_eq _ _ h.2]
  · rw [h]
  · rw [h.1, sameArms_eq _ _ h.2]
  · rw [h.1, h.2]
theorem sameArm_eq (a a' : Arm) (h : sameArm a a' = true) : a = a' := by
  cases a <;> cases a' <;> simp only [sameArm, Bool.and_eq_true, decide_eq_true_eq, Bool.false_eq_true] at h ⊢
  rw [h.1, sameBlock_eq _ _ h.2]
theorem sameBlock_eq (b b' : List Stmt) (h : sameBlock b b' = true) : b = b' := by
  cases b <;> cases b' <;> simp only [sameBlock, Bool.and_eq_true, Bool.false_eq_true] at h ⊢
  rw [sameStmt_eq _ _ h.1, sameBlock_eq _ _ h.2]
theorem sameArms_eq (as as' : List Arm) (h : sameArms as as' = true) : as = as' := by
  cases as <;> cases as' <;> simp only [sameArms, Bool.and_eq_true, Bool.false_eq_true] at h ⊢
  rw [sameArm_eq _ _ h.1, sameArms_eq _ _ h.2]
end

end Wayfinder.Rust
