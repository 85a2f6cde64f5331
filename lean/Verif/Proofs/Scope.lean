import Verif.Spec.Scope
import Verif.Props.Accept
import Verif.Proofs.Format
/-!
# Reading imports
-/

namespace Wayfinder.Rust

/-! ## Reading on when more follows -/

theorem readPath_append (x : List Tok) : ∀ (ts : List Tok) {p : List Str} {t : Tok} {r : List Tok},
    readPath ts = some (p, t :: r) → readPath (ts ++ x) = some (p, t :: r ++ x) := by
  intro ts
  induction ts using readPath.induct with
  | case1 => intro p t r h; simp [readPath] at h
  | case2 y h => intro p t r h'; simp [readPath] at h'
  | case3 y h => intro p t r h'; simp [readPath, h] at h'
  | case4 y ts hn ih =>
    intro p t' r h
    simp only [readPath, hn, if_true, Option.map_eq_some_iff] at h
    obtain ⟨⟨q, s⟩, h1, h2⟩ := h
    simp only [Prod.mk.injEq] at h2
    obtain ⟨rfl, rfl⟩ := h2
    simp only [List.cons_append, readPath, hn, if_true, ih h1, Option.map_some]
  | case5 y t ts hn ht =>
    intro p t' r h
    simp only [readPath, hn, if_true, ht, if_false, Option.some.injEq, Prod.mk.injEq, List.cons.injEq] at h
    obtain ⟨rfl, rfl, rfl⟩ := h
    simp only [List.cons_append, readPath, hn, if_true, ht, if_false]
  | case6 y t ts hn =>
    intro p t' r h
    simp [readPath, hn] at h
  | case7 t ts h =>
    intro p t' r h'
    rw [readPath] at h'
    · cases h'
    all_goals first | exact h | simp_all

theorem readUsePath_append {ts : List Tok} {p : List Str} {t : Tok} {r : List Tok} (x : List Tok)
    (h : readUsePath ts = some (p, t :: r)) : readUsePath (ts ++ x) = some (p, t :: r ++ x) := by
  unfold readUsePath at h ⊢
  split at h
  · simp only [Option.map_eq_some_iff] at h
    obtain ⟨⟨q, s⟩, h1, h2⟩ := h
    simp only [Prod.mk.injEq] at h2
    obtain ⟨rfl, rfl⟩ := h2
    simp only [List.cons_append, readPath_append x _ h1, Option.map_some]
  · rename_i hne
    have := readPath_append x _ h
    split
    · rename_i ts' he
      -- the first two tokens are there already, or the path would have ended
      match ts, h, hne, he with
      | [], h, _, _ => simp [readPath] at h
      | [a], h, _, he =>
        simp only [List.cons_append, List.nil_append, List.cons.injEq] at he
        rw [he.1] at h
        cases h
      | a :: b :: rest, h, hne, he =>
        simp only [List.cons_append, List.cons.injEq] at he
        exact (hne rest (by rw [he.1, he.2.1])).elim
    · exact this

theorem readUseEnd_append {p : List Str} {ts : List Tok} {u : Use} {r : List Tok} (x : List Tok)
    (h : readUseEnd p ts = some (u, r)) : readUseEnd p (ts ++ x) = some (u, r ++ x) := by
  unfold readUseEnd at h ⊢
  split at h
  · simp only [Option.map_eq_some_iff, Prod.mk.injEq] at h
    obtain ⟨y, h1, rfl, rfl⟩ := h
    simp [h1]
  · split at h
    · rename_i hn
      cases h
      simp [hn]
    · cases h
  · cases h

theorem readUse_append {ts : List Tok} {u : Use} {r : List Tok} (x : List Tok) (h : readUse ts = some (u, r)) :
    readUse (ts ++ x) = some (u, r ++ x) := by
  unfold readUse at h ⊢
  obtain ⟨⟨p, s⟩, h1, h2⟩ := Option.bind_eq_some_iff.1 h
  cases s with
  | nil => simp [readUseEnd] at h2
  | cons t s =>
    rw [readUsePath_append x h1]
    exact readUseEnd_append x h2

/-- The word `use`. -/
def useTok : Tok := .word ['u', 's', 'e']

theorem readUses_other {n : Nat} {ts : List Tok} (h : ts.head? ≠ some useTok) : readUses (n + 1) ts = some ([], ts) := by
  rw [readUses]
  intro ts' e
  subst e
  exact h rfl

theorem readUses_append {rest : List Tok} (hr : rest.head? ≠ some useTok) : ∀ {k : Nat} {ts : List Tok} {us : List Use},
    readUses k ts = some (us, []) → ∀ {k'}, k ≤ k' → readUses k' (ts ++ rest) = some (us, rest)
  | 0, _, _, h, _, _ => by simp [readUses] at h
  | k + 1, ts, us, h, k', hk => by
    obtain ⟨k', rfl⟩ : ∃ j, k' = j + 1 := ⟨k' - 1, by omega⟩
    by_cases hu : ts.head? = some useTok
    · obtain ⟨ts, rfl⟩ : ∃ ts', ts = useTok :: ts' := by
        cases ts with
        | nil => cases hu
        | cons t ts => simp only [List.head?_cons, Option.some.injEq] at hu; exact ⟨ts, by rw [hu]⟩
      simp only [useTok, readUses, Option.bind_eq_some_iff, Option.map_eq_some_iff, Prod.mk.injEq] at h
      obtain ⟨⟨u, s⟩, h1, ⟨us', s'⟩, h2, rfl, rfl⟩ := h
      simp only [useTok, List.cons_append, readUses, readUse_append rest h1, Option.bind_some,
        readUses_append hr h2 (Nat.le_of_succ_le_succ hk), Option.map_some]
    · rw [readUses_other hu] at h
      simp only [Option.some.injEq, Prod.mk.injEq] at h
      obtain ⟨rfl, rfl⟩ := h
      rw [List.nil_append]
      exact readUses_other hr

/-! ## The same imports in every module -/

mutual
theorem items_annotate (us : List Use) : ∀ m : Mod, (annotate us m).items = m
  | .mk structs subs variants handled => by simp [annotate, Scoped.items, itemsAll_annotate us subs]
theorem itemsAll_annotate (us : List Use) : ∀ ms : List (Str × Mod), itemsAll (annotateAll us ms) = ms
  | [] => by simp [annotateAll, itemsAll]
  | (x, m) :: ms => by simp [annotateAll, itemsAll, items_annotate us m, itemsAll_annotate us ms]
end

/-- Behind the headers no import follows. -/
theorem not_use {n : Nat} {hs ts ts1 ts2 : List Tok} {structs : List Struct} {subs : List (Str × Mod)}
    {r : List (Str × List Str) × List Str × List Tok} (h1 : readStructs n ts = some (structs, ts1))
    (h2 : readMods hs n ts1 = some (subs, ts2)) (h3 : readEnum n ts2 = some r) : ts.head? ≠ some useTok := by
  intro h
  obtain ⟨ts, rfl⟩ : ∃ ts', ts = useTok :: ts' := by
    cases ts with
    | nil => cases h
    | cons t ts => simp only [List.head?_cons, Option.some.injEq] at h; exact ⟨ts, by rw [h]⟩
  cases n with
  | zero => simp [readStructs] at h1
  | succ n =>
    have e1 : eatText structHead (useTok :: ts) = none := rfl
    have e2 : eatText c!"pub mod" (useTok :: ts) = none := rfl
    have e3 : eatText enumHead (useTok :: ts) = none := rfl
    rw [readStructs, e1] at h1
    cases h1
    rw [readMods, e2] at h2
    cases h2
    rw [readEnum, e3] at h3
    cases h3

section
variable {hs : List Tok} {us : List Use} (hu : readUses (hs.length + 1) hs = some (us, []))
include hu

theorem uses_read {rest : List Tok} (hr : rest.head? ≠ some useTok) :
    readUses ((hs ++ rest).length + 1) (hs ++ rest) = some (us, rest) :=
  readUses_append hr hu (by simp)

mutual
theorem readScopedMod_of : ∀ (n : Nat) {ts ts' : List Tok} {m : Mod}, readMod hs n ts = some (m, ts') →
    readScopedMod n ts = some (annotate us m, ts')
  | 0, _, _, _, h => by simp [readMod] at h
  | n + 1, ts, ts', m, h => by
    rw [readMod] at h
    split at h
    · cases h
    · rename_i ts1 h0
      split at h
      · cases h
      · rename_i structs ts2 h1
        split at h
        · cases h
        · rename_i subs ts3 h2
          obtain ⟨r, h3, h4⟩ := Option.map_eq_some_iff.1 h
          cases h4
          obtain rfl := eat_some h0
          rw [readScopedMod, uses_read hu (not_use h1 h2 h3)]
          simp only
          rw [h1]
          simp only
          rw [readScopedMods_of n h2]
          simp only
          rw [h3]
          simp [annotate]
theorem readScopedMods_of : ∀ (n : Nat) {ts ts' : List Tok} {ms : List (Str × Mod)}, readMods hs n ts = some (ms, ts') →
    readScopedMods n ts = some (annotateAll us ms, ts')
  | 0, _, _, _, h => by simp [readMods] at h
  | n + 1, ts, ts', ms, h => by
    rw [readMods] at h
    rw [readScopedMods]
    split at h
    · rename_i h0
      cases h
      rw [h0]
      simp [annotateAll]
    · rename_i ts1 h0
      rw [h0]
      split at h
      · cases h
      · rename_i x ts2 h1
        simp only [h1]
        split at h
        · cases h
        · rename_i ts3 h2
          simp only [h2]
          split at h
          · cases h
          · rename_i m ts4 h3
            simp only [readScopedMod_of n h3]
            split at h
            · cases h
            · rename_i ts5 h4
              simp only [h4]
              obtain ⟨⟨r, s⟩, h5, h6⟩ := Option.map_eq_some_iff.1 h
              cases h6
              rw [readScopedMods_of n h5]
              simp [annotateAll]
end

theorem fileToks_readScoped {root : FlattenedModule} {body : List Stmt} (hm : ModNamed Name root) (hb : BlockNamed Name body)
    (ha : blockAscii body = true) :
    readScopedFile (fileToks hs root body) =
      if blockShapeOk body then some (annotate us (modOf root), eraseBlock body) else none := by
  have hn1 : (modToks hs root).length ≤ (fileToks hs root body).length + 1 := by
    simp only [fileToks, List.length_append]; omega
  have hn2 : (blockToks body).length + 1 ≤ (fileToks hs root body).length + 1 := by
    simp only [fileToks, List.length_append]; omega
  unfold readScopedFile
  generalize (fileToks hs root body).length + 1 = n at hn1 hn2
  unfold fileToks
  simp only [eatText_append, Option.bind_eq_bind, Option.bind_some, readScopedMod_of hu _ (readMod_mod hs root n _ hm hn1),
    readBlock_block body n _ hb ha hn2]
  cases blockShapeOk body <;> rfl

end

/-- Reading the imports with the rest: the declarations and statements are those read before, and the imports of the
headers are in every module. -/
theorem readScoped_eq {c : RouteConfig} (h : Ready c) {us : List Use} (hu : Imports c.headers us) :
    readScoped (codegen c).text = (readText (headerToks c.headers) (codegen c).text).bind fun r =>
      if (annotate us r.1).ok true then some (annotate us r.1, r.2) else none := by
  obtain ⟨root, body, hr, hb, -⟩ := codegen_text h.generated
  unfold readScoped readText
  rw [codegen_lex h.generated h.headers h.words hr hb]
  cases ha : blockAscii body
  · rfl
  simp only [if_true, Option.bind_eq_bind, Option.bind_some, fileToks_read _ (h.words.modules hr) (h.words.body hb) ha,
    fileToks_readScoped hu (h.words.modules hr) (h.words.body hb) ha]
  cases blockShapeOk body
  · rfl
  · simp only [if_true, Option.bind_some, items_annotate]
    cases elabBlock (modOf root) (eraseBlock body) with
    | none => rfl
    | some b =>
      simp only [Option.bind_some, Bool.and_eq_true]
      by_cases h1 : (modOf root).ok true = true ∧ Wayfinder.compiles b = true
      · by_cases h2 : (annotate us (modOf root)).ok true = true
        · simp [h1, h2]
        · simp [h1, h2]
      · simp [h1]

end Wayfinder.Rust
