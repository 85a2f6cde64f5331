import Verif.Spec.Diff
import Verif.Proofs.Lex
/-!
# C54: the report of a failed golden test is a patch from the expected to the actual text
-/

namespace Wayfinder.Diff

theorem first_chunk (on nn : Str) : ∀ (ops : List DiffOp) (o n : Nat) (c : Chunk) (cs : List Chunk),
    chunksFrom on nn o n ops = c :: cs → o ≤ c.oldLine
  | [], _, _, _, _, h => by cases h
  | .equal a :: ops, o, n, c, cs, h => Nat.le_trans (Nat.le_add_right ..) (first_chunk on nn ops _ _ c cs h)
  | .insert a :: ops, o, n, c, cs, h => by cases h; exact Nat.le_refl _
  | .remove a :: ops, o, n, c, cs, h => by cases h; exact Nat.le_refl _
  | .replace a b :: ops, o, n, c, cs, h => by cases h; exact Nat.le_refl _

/-- Lines in front of the first hunk are kept. -/
theorem patch_keep (a rest : List Str) (o n : Nat) (cs : List Chunk)
    (h : ∀ c cs', cs = c :: cs' → o + a.length ≤ c.oldLine) :
    patch o n (a ++ rest) cs = (patch (o + a.length) (n + a.length) rest cs).map (a ++ ·) := by
  cases cs with
  | nil => simp [patch]
  | cons c cs =>
    have h1 := h c cs rfl
    obtain ⟨k, hk⟩ : ∃ k, c.oldLine = o + a.length + k := ⟨c.oldLine - (o + a.length), by omega⟩
    have e1 : c.oldLine - o = a.length + k := by omega
    have e2 : c.oldLine - (o + a.length) = k := by omega
    have e3 : a.length + k + c.oldCount = a.length + (k + c.oldCount) := by omega
    simp only [patch, e1, e2, e3, List.drop_length_add_append, List.take_length_add_append]
    by_cases hcond : o + a.length ≤ c.oldLine ∧ n + a.length + k = c.newLine ∧
        c.oldCount = ((c.diff.map DiffOp.old).flatten).length ∧
        c.newCount = ((c.diff.map DiffOp.new).flatten).length ∧ (c.diff.map DiffOp.old).flatten <+: rest.drop k
    · rw [if_pos hcond, if_pos ⟨by omega, by omega, hcond.2.2⟩]
      simp [Option.map_map, Function.comp_def]
    · rw [if_neg hcond, if_neg]
      · rfl
      · rintro ⟨h1, h2, h3⟩
        exact hcond ⟨by omega, by omega, h3⟩

theorem patch_chunks (on nn : Str) : ∀ (ops : List DiffOp) (o n : Nat),
    patch o n (ops.map DiffOp.old).flatten (chunksFrom on nn o n ops) = some (ops.map DiffOp.new).flatten
  | [], o, n => by simp [patch, chunksFrom]
  | .equal a :: ops, o, n => by
    have := patch_chunks on nn ops (o + a.length) (n + a.length)
    simp only [List.map_cons, List.flatten_cons, DiffOp.old, DiffOp.new]
    change patch o n _ (chunksFrom on nn (o + a.length) (n + a.length) ops) = _
    rw [patch_keep _ _ _ _ _ (fun c cs h => first_chunk on nn ops _ _ c cs h), this]
    rfl
  | .insert a :: ops, o, n => by
    have := patch_chunks on nn ops o (n + a.length)
    simp [chunksFrom, step, patch, DiffOp.old, DiffOp.new, this]
  | .remove a :: ops, o, n => by
    have := patch_chunks on nn ops (o + a.length) n
    simp [chunksFrom, step, patch, DiffOp.old, DiffOp.new, this]
  | .replace a b :: ops, o, n => by
    have := patch_chunks on nn ops (o + a.length) (n + b.length)
    simp [chunksFrom, step, patch, DiffOp.old, DiffOp.new, this]

/-- **C54.** The hunks of the report, applied to the lines of the expected text at the line numbers they
name, give the lines of the actual text; all line numbers and counts are right. -/
theorem C54_patch {ops : List DiffOp} {old new : List Str} (h : Script ops old new) (on nn : Str) :
    patch 1 1 old (toChunks on nn ops) = some new := by
  rw [← h.1, ← h.2]; exact patch_chunks on nn ops 1 1

theorem chunks_swap (on nn : Str) : ∀ (ops : List DiffOp) (o n : Nat),
    (chunksFrom on nn o n ops).map Chunk.swap = chunksFrom nn on n o (ops.map DiffOp.swap)
  | [], _, _ => rfl
  | .equal a :: ops, o, n => chunks_swap on nn ops _ _
  | .insert a :: ops, o, n => by
    simp [chunksFrom, step, DiffOp.swap, Chunk.swap, chunks_swap on nn ops]
  | .remove a :: ops, o, n => by
    simp [chunksFrom, step, DiffOp.swap, Chunk.swap, chunks_swap on nn ops]
  | .replace a b :: ops, o, n => by
    simp [chunksFrom, step, DiffOp.swap, Chunk.swap, chunks_swap on nn ops]

/-- **C54, backwards.** With the roles of the texts exchanged, the hunks lead back from the actual to the
expected text. -/
theorem C54_back {ops : List DiffOp} {old new : List Str} (h : Script ops old new) (on nn : Str) :
    patch 1 1 new ((toChunks on nn ops).map Chunk.swap) = some old := by
  rw [toChunks, chunks_swap]
  refine C54_patch ⟨?_, ?_⟩ nn on
  · rw [← h.2, List.map_map]; congr 2; funext op; cases op <;> rfl
  · rw [← h.1, List.map_map]; congr 2; funext op; cases op <;> rfl

/-- One line removed, one replaced by two, one added at the end. -/
def sample : List DiffOp :=
  [.equal [c!"a"], .remove [c!"b"], .equal [c!"c"], .replace [c!"d"] [c!"x", c!"y"], .equal [c!"e"], .insert [c!"z"]]

example : Script sample [c!"a", c!"b", c!"c", c!"d", c!"e"] [c!"a", c!"c", c!"x", c!"y", c!"e", c!"z"] ∧
    (toChunks c!"expected" c!"actual" sample).map (fun c => (c.oldLine, c.oldCount, c.newLine, c.newCount)) =
      [(2, 1, 2, 0), (4, 1, 3, 2), (6, 0, 6, 1)] := by
  refine ⟨⟨by decide, by decide⟩, by decide⟩

/-! ## The text -/

theorem plain_append : ∀ {s : Str} (_ : esc ∉ s) (t : Str), plainFrom false (s ++ t) = s ++ plainFrom false t
  | [], _, _ => rfl
  | ch :: s, h, t => by
    simp only [List.mem_cons, not_or] at h
    simp only [List.cons_append, plainFrom, if_neg (Ne.symm h.1), plain_append h.2]

theorem plain_paint {colour s : Str} (hc : colour = c!"31" ∨ colour = c!"32" ∨ colour = c!"33") (h : esc ∉ s) (t : Str) :
    plainFrom false (paint colour s ++ t) = s ++ plainFrom false t := by
  have : plainFrom false (paint colour s ++ t) = plainFrom false (s ++ esc :: (c!"[0m" ++ t)) := by
    rcases hc with rfl | rfl | rfl <;> simp [paint, plainFrom, esc]
  rw [this, plain_append h]
  rfl

theorem esc_digits (n : Nat) : esc ∉ natStr n := by
  intro h
  have := (Rust.word_digits n).2 _ h
  revert this
  decide

/-- The lines with their ends. -/
def ended (ls : List Str) : Str := (ls.map (· ++ c!"\n")).flatten

theorem joined_lines (p : Str) : ∀ {a : List Str}, a ≠ [] →
    p ++ joined (c!"\n" ++ p) a ++ c!"\n" = ended (a.map (p ++ ·))
  | [], h => absurd rfl h
  | [l], _ => by simp [joined, ended]
  | l :: l' :: ls, _ => by
    have := joined_lines p (a := l' :: ls) (by simp)
    simp only [ended, List.map_cons, List.flatten_cons] at this ⊢
    rw [← this]
    simp [joined]

theorem esc_joined {p : Str} (hp : esc ∉ p) : ∀ {a : List Str}, (∀ l ∈ a, esc ∉ l) → esc ∉ joined p a
  | [], _ => by simp [joined]
  | [l], h => by simpa [joined] using h l (by simp)
  | l :: l' :: ls, h => by
    simp only [joined, List.mem_append, not_or]
    exact ⟨⟨h l (by simp), hp⟩, esc_joined hp fun x hx => h x (List.mem_cons_of_mem _ hx)⟩

/-- The operations have no empty side and no line with an escape character. -/
def Printable (ops : List DiffOp) : Prop :=
  ∀ op ∈ ops, (match op with
    | .insert a => a ≠ []
    | .remove a => a ≠ []
    | .replace a b => a ≠ [] ∧ b ≠ []
    | .equal _ => True) ∧ (∀ l ∈ op.old, esc ∉ l) ∧ ∀ l ∈ op.new, esc ∉ l

theorem plain_removal {a : List Str} (h : ∀ l ∈ a, esc ∉ l) (ha : a ≠ []) (t : Str) :
    plainFrom false (removal a ++ (c!"\n" ++ t)) = ended (a.map (c!"-" ++ ·)) ++ plainFrom false t := by
  have hj := esc_joined (p := c!"\n-") (by decide) h
  rw [removal, plain_paint (.inl rfl) (by simpa using ⟨by decide, hj⟩), plain_append (by decide), ← joined_lines _ ha]
  simp

theorem plain_insertion {a : List Str} (h : ∀ l ∈ a, esc ∉ l) (ha : a ≠ []) (t : Str) :
    plainFrom false (insertion a ++ (c!"\n" ++ t)) = ended (a.map (c!"+" ++ ·)) ++ plainFrom false t := by
  have hj := esc_joined (p := c!"\n+") (by decide) h
  rw [insertion, plain_paint (.inr (.inl rfl)) (by simpa using ⟨by decide, hj⟩), plain_append (by decide),
    ← joined_lines _ ha]
  simp

theorem plain_header {c : Chunk} (ho : esc ∉ c.oldName) (hn : esc ∉ c.newName) (t : Str) :
    plainFrom false (c.header ++ (c!"\n" ++ t)) = ended (c.lines.take 3) ++ plainFrom false t := by
  rw [Chunk.header, plain_paint (.inr (.inr rfl)), plain_append (by decide)]
  · simp [Chunk.lines, ended]
  · have := esc_digits
    have h1 : esc ∉ c!"--- " := by decide
    have h2 : esc ∉ c!"\n+++ " := by decide
    have h3 : esc ∉ c!"\n@@ -" := by decide
    have h4 : esc ∉ c!"," := by decide
    have h5 : esc ∉ c!" +" := by decide
    have h6 : esc ∉ c!" @@" := by decide
    simp only [List.mem_append, not_or]
    exact ⟨⟨⟨⟨⟨⟨⟨⟨⟨⟨⟨⟨h1, ho⟩, h2⟩, hn⟩, h3⟩, this _⟩, h4⟩, this _⟩, h5⟩, this _⟩, h4⟩, this _⟩, h6⟩

theorem plain_chunks {on nn : Str} (hon : esc ∉ on) (hnn : esc ∉ nn) : ∀ (ops : List DiffOp), Printable ops →
    ∀ (o n : Nat), plainFrom false ((chunksFrom on nn o n ops).map fun c => c.display ++ c!"\n").flatten =
      ended ((chunksFrom on nn o n ops).map Chunk.lines).flatten
  | [], _, _, _ => rfl
  | op :: ops, h, o, n => by
    have ih := plain_chunks hon hnn ops fun x hx => h x (List.mem_cons_of_mem _ hx)
    have h1 := h op (by simp)
    have happ : ∀ (x y : List Str), ended (x ++ y) = ended x ++ ended y := by simp [ended]
    have hnl : ended [[]] = c!"\n" := rfl
    cases op with
    | equal a => exact ih _ _
    | insert a =>
      have ih' := ih o (n + a.length)
      simp only [chunksFrom, step, List.map_cons, List.flatten_cons]
      generalize (List.map (fun c : Chunk => c.display ++ c!"\n") (chunksFrom on nn o (n + a.length) ops)).flatten = T at ih' ⊢
      simp only [Chunk.display, List.append_assoc, DiffOp.display, List.map_cons, List.map_nil, List.flatten_cons,
        List.flatten_nil, List.nil_append]
      rw [plain_header (by exact hon) (by exact hnn), plain_insertion (a := a) h1.2.2 h1.1, plain_append (by decide), ih', happ]
      simp [Chunk.lines, ended, DiffOp.old, DiffOp.new]
    | remove a =>
      have ih' := ih (o + a.length) n
      simp only [chunksFrom, step, List.map_cons, List.flatten_cons]
      generalize (List.map (fun c : Chunk => c.display ++ c!"\n") (chunksFrom on nn (o + a.length) n ops)).flatten = T at ih' ⊢
      simp only [Chunk.display, List.append_assoc, DiffOp.display, List.map_cons, List.map_nil, List.flatten_cons,
        List.flatten_nil, List.nil_append]
      rw [plain_header (by exact hon) (by exact hnn), plain_removal (a := a) h1.2.1 h1.1, plain_append (by decide), ih', happ]
      simp [Chunk.lines, ended, DiffOp.old, DiffOp.new]
    | replace a b =>
      have ih' := ih (o + a.length) (n + b.length)
      simp only [chunksFrom, step, List.map_cons, List.flatten_cons]
      generalize (List.map (fun c : Chunk => c.display ++ c!"\n") (chunksFrom on nn (o + a.length) (n + b.length) ops)).flatten = T at ih' ⊢
      simp only [Chunk.display, List.append_assoc, DiffOp.display, List.map_cons, List.map_nil, List.flatten_cons,
        List.flatten_nil, List.nil_append]
      rw [plain_header (by exact hon) (by exact hnn), plain_removal (a := a) h1.2.1 h1.1.1, plain_insertion (a := b) h1.2.2 h1.1.2, plain_append (by decide), ih', happ]
      simp [Chunk.lines, ended, DiffOp.old, DiffOp.new]

/-- **C54, the text.** Without its colours the printed report consists of the lines of its hunks: the names
and places, the removed lines behind `-`, the added lines behind `+`, and an empty line. -/
theorem C54_text {ops : List DiffOp} (h : Printable ops) {on nn : Str} (hon : esc ∉ on) (hnn : esc ∉ nn) :
    plainFrom false (display on nn ops) = ended ((toChunks on nn ops).map Chunk.lines).flatten :=
  plain_chunks hon hnn ops h 1 1

/-- **C54, the verdict.** A golden test fails exactly if the texts differ, and then the report has at least
one hunk, provided that the line diff leads from the one text to the other and the lines determine a text. -/
theorem C54_verdict {diffLines : Str → Str → List DiffOp} {linesOf : Str → List Str}
    (hd : ∀ a b, Script (diffLines a b) (linesOf a) (linesOf b)) (hl : Function.Injective linesOf)
    (expected actual : Str) :
    (assertSame diffLines expected actual = none ↔ expected = actual) ∧
    (expected ≠ actual → toChunks c!"expected" c!"actual" (diffLines expected actual) ≠ []) := by
  constructor
  · simp only [assertSame]
    by_cases h : expected = actual <;> simp [h]
  · intro hne he
    have := C54_patch (hd expected actual) c!"expected" c!"actual"
    rw [he] at this
    simp only [patch, Option.some.injEq] at this
    exact hne (hl this)

example : Printable sample ∧ esc ∉ c!"expected" ∧ esc ∉ c!"actual" := by
  refine ⟨?_, by decide, by decide⟩
  intro op hop
  simp only [sample, List.mem_cons, List.not_mem_nil, or_false] at hop
  rcases hop with rfl | rfl | rfl | rfl | rfl | rfl <;> exact ⟨by decide, by decide, by decide⟩

/-- The premise of `C54_verdict` can be met: the whole text as one line, replaced as a whole. -/
example : ∃ (diffLines : Str → Str → List DiffOp) (linesOf : Str → List Str),
    (∀ a b, Script (diffLines a b) (linesOf a) (linesOf b)) ∧ Function.Injective linesOf :=
  ⟨fun a b => [.replace [a] [b]], fun a => [a], fun _ _ => ⟨rfl, rfl⟩, fun a b h => by simpa using h⟩

end Wayfinder.Diff
