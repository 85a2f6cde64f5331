import Verif.Proofs.Written
import Verif.Spec.Grammar
/-!
# Parsing printed configurations
-/

namespace Wayfinder

variable {α β : Type} (cfg : ParseCfg)

theorem spaces_succ (k : Nat) : spaces (k + 1) = ' ' :: ' ' :: spaces k := by
  simp [spaces, Nat.mul_succ, List.replicate_succ]

theorem indent_eq {level : Nat} (h : level ≤ 7) : indent level = spaces level := by
  match level, h with
  | 0, _ | 1, _ | 2, _ | 3, _ | 4, _ | 5, _ | 6, _ | 7, _ => rfl

/-- The text does not begin with a blank, a line ending or a colon. -/
def Plain (r : Str) : Prop := ∀ c, r.head? = some c → isWs c = false ∧ c ≠ ':'

/-- The text does not begin with a line-ending character. -/
def NoEol (r : Str) : Prop := ∀ c, r.head? = some c → notEol c = true

/-- The text begins with fewer than `level` indentations, or there are only blanks. -/
def Dedent (level : Nat) (rest : Str) : Prop := ∃ n r, (n < 2 * level ∨ r = []) ∧ rest = List.replicate n ' ' ++ r ∧ Plain r

theorem Plain.noEol {r : Str} (h : Plain r) : NoEol r := by
  intro c hc
  have := (h c hc).1
  simp only [isWs, Bool.or_eq_false_iff, beq_eq_false_iff_ne] at this
  simp [notEol, this]

theorem noEol_spaces {k : Nat} {r : Str} (h : NoEol r) : NoEol (spaces k ++ r) := by
  cases k with
  | zero => exact h
  | succ k => intro c hc; simp [spaces_succ] at hc; subst hc; rfl

theorem Dedent.noEol {level : Nat} {rest : Str} (h : Dedent level rest) : NoEol rest := by
  obtain ⟨n, r, _, rfl, hr⟩ := h
  cases n with
  | zero => exact hr.noEol
  | succ n => intro c hc; simp [List.replicate_succ] at hc; subst hc; rfl

theorem Dedent.mono {level level' : Nat} {rest : Str} (h : Dedent level rest) (hl : level ≤ level') :
    Dedent level' rest := by
  obtain ⟨n, r, hk, h1, h2⟩ := h
  exact ⟨n, r, hk.imp_left fun h => by omega, h1, h2⟩

theorem dropWs_plain {r : Str} (h : Plain r) : r.dropWhile isWs = r := by
  cases r with
  | nil => rfl
  | cons c r => rw [List.dropWhile_cons, if_neg]; simpa using (h c rfl).1

theorem dropWs_spaces (k : Nat) (r : Str) : (spaces k ++ r).dropWhile isWs = r.dropWhile isWs := by
  induction k with
  | zero => rfl
  | succ k ih =>
    rw [spaces_succ]
    simp only [List.cons_append, List.dropWhile_cons]
    rw [if_pos (by decide), if_pos (by decide), ih]

theorem dropWs_replicate (n : Nat) (r : Str) : (List.replicate n ' ' ++ r).dropWhile isWs = r.dropWhile isWs := by
  induction n with
  | zero => rfl
  | succ n ih =>
    simp only [List.replicate_succ, List.cons_append, List.dropWhile_cons]
    rw [if_pos (by decide), ih]

theorem Dedent.dropWs {level : Nat} {rest : Str} (h : Dedent level rest) : Plain (rest.dropWhile isWs) := by
  obtain ⟨n, r, _, rfl, hr⟩ := h
  rw [dropWs_replicate, dropWs_plain hr]; exact hr

/-! ## Line endings -/

theorem NoEol.lineEnding {r : Str} (h : NoEol r) : pLineEnding r = .error (.code r .crlf) := by
  unfold pLineEnding
  split
  · exact absurd (h _ rfl) (by decide)
  · exact absurd (h _ rfl) (by decide)
  · rfl

theorem NoEol.many0 {r : Str} (h : NoEol r) : pMany0 pLineEnding r = .ok r [] := by
  rw [many0_eq tidy_lineEnding, h.lineEnding]

theorem NoEol.many1 {r : Str} (h : NoEol r) : pMany1 pLineEnding ('\n' :: r) = .ok r [()] := by
  rw [many1_eq]
  simp only [pLineEnding, h.many0, Res.prepend, List.append_nil]

theorem requireNewline_ok {r : Str} (h : NoEol r) : pRequireNewline ('\n' :: r) = .ok r () := by
  simp [pRequireNewline, pReturnError, pMap, pBind, h.many1, pPure]

/-! ## Loops over printed elements -/

/-- A loop reads back a printed list. -/
theorem many0_list {p : Parser α} (hp : Tidy p) {pr : α → Str} {S : Str → Prop} {rest : Str} (hrest : S rest)
    {c : Ctx} (he : p rest = .error c) : ∀ xs : List α, (∀ x ∈ xs, pr x ≠ []) →
    (∀ x ∈ xs, ∀ r, S r → S (pr x ++ r)) → (∀ x ∈ xs, ∀ r, S r → p (pr x ++ r) = .ok r x) →
    S ((xs.map pr).flatten ++ rest) ∧ pMany0 p ((xs.map pr).flatten ++ rest) = .ok rest xs
  | [], _, _, _ => ⟨hrest, by rw [many0_eq hp]; simp only [List.map_nil, List.flatten_nil, List.nil_append, he]⟩
  | x :: xs, h1, h2, h3 => by
    obtain ⟨h4, h5⟩ := many0_list hp hrest he xs (fun y hy => h1 y (by simp [hy]))
      (fun y hy => h2 y (by simp [hy])) fun y hy => h3 y (by simp [hy])
    have : (((x :: xs).map pr).flatten ++ rest) = pr x ++ ((xs.map pr).flatten ++ rest) := by simp
    rw [this]
    refine ⟨h2 x (by simp) _ h4, ?_⟩
    rw [many0_eq hp, h3 x (by simp) _ h4]
    simp only
    rw [if_neg, h5]
    · rfl
    · intro e
      have := congrArg List.length e
      have hne := h1 x (by simp)
      rw [List.length_append] at this
      cases hx : pr x with
      | nil => exact hne hx
      | cons a b => rw [hx] at this; simp only [List.length_append, List.length_cons] at this; omega

/-- Likewise for `many1!`. -/
theorem many1_list {p : Parser α} (hp : Tidy p) {pr : α → Str} {S : Str → Prop} {rest : Str} (hrest : S rest)
    {c : Ctx} (he : p rest = .error c) (xs : List α) (hne : xs ≠ []) (h1 : ∀ x ∈ xs, pr x ≠ [])
    (h2 : ∀ x ∈ xs, ∀ r, S r → S (pr x ++ r)) (h3 : ∀ x ∈ xs, ∀ r, S r → p (pr x ++ r) = .ok r x) :
    pMany1 p ((xs.map pr).flatten ++ rest) = .ok rest xs := by
  cases xs with
  | nil => exact absurd rfl hne
  | cons x xs =>
    obtain ⟨h4, h5⟩ := many0_list hp hrest he xs (fun y hy => h1 y (by simp [hy]))
      (fun y hy => h2 y (by simp [hy])) fun y hy => h3 y (by simp [hy])
    have : (((x :: xs).map pr).flatten ++ rest) = pr x ++ ((xs.map pr).flatten ++ rest) := by simp
    rw [this, many1_eq, h3 x (by simp) _ h4]
    simp only [h5, Res.prepend, List.singleton_append]

/-! ## Tokens -/

/-- The text does not begin with a word character. -/
def NotWord (r : Str) : Prop := ∀ c, r.head? = some c → isIdentifierChar cfg c = false

theorem notWord_cons {c : Char} {r : Str} (h : isIdentifierChar cfg c = false) : NotWord cfg (c :: r) := by
  intro d hd; simp at hd; subst hd; exact h

theorem ident_ok {s r : Str} (hs : Word cfg s) (hr : NotWord cfg r) : pIdent cfg (s ++ r) = .ok r s := by
  have hall : ∀ c ∈ s, isIdentifierChar cfg c = true := fun c hc => (wordChar_iff cfg c).2 (hs.2 c hc)
  have ht : r.takeWhile (isIdentifierChar cfg) = [] ∧ r.dropWhile (isIdentifierChar cfg) = r := by
    cases r with
    | nil => exact ⟨rfl, rfl⟩
    | cons c r =>
      have := hr c rfl
      simp [this]
  unfold pIdent pTakeWhile1
  rw [List.takeWhile_append_of_pos hall, List.dropWhile_append_of_pos hall, ht.1, ht.2, List.append_nil]
  cases s with
  | nil => exact absurd rfl hs.1
  | cons c t => rfl

theorem wordChar_notWs {c : Char} (h : isIdentifierChar cfg c = true) : isWs c = false ∧ c ≠ ':' ∧ c ≠ '/' ∧
    c ≠ '{' ∧ c ≠ '[' ∧ c ≠ '-' := by
  have key : ∀ d : Char, d.toNat < 128 → (d.isAlphanum || d == '_') = false → c ≠ d := by
    rintro d h1 h2 rfl
    unfold isIdentifierChar at h
    rw [if_pos h1] at h
    rw [h] at h2; cases h2
  refine ⟨?_, key _ (by decide) (by decide), key _ (by decide) (by decide), key _ (by decide) (by decide),
    key _ (by decide) (by decide), key _ (by decide) (by decide)⟩
  simp only [isWs, Bool.or_eq_false_iff, beq_eq_false_iff_ne]
  exact ⟨⟨⟨key _ (by decide) (by decide), key _ (by decide) (by decide)⟩, key _ (by decide) (by decide)⟩,
    key _ (by decide) (by decide)⟩

theorem Word.head {s : Str} (h : Word cfg s) : ∃ c t, s = c :: t ∧ isIdentifierChar cfg c = true := by
  cases s with
  | nil => exact absurd rfl h.1
  | cons c t => exact ⟨c, t, rfl, (wordChar_iff cfg c).2 (h.2 c (by simp))⟩

theorem Word.plain {s r : Str} (h : Word cfg s) : Plain (s ++ r) := by
  obtain ⟨c, t, rfl, hc⟩ := h.head
  intro d hd
  simp at hd
  subst hd
  have := wordChar_notWs cfg hc
  exact ⟨this.1, this.2.1⟩

theorem nonWord_notWord {c : Char} (h1 : c.toNat < 128) (h2 : (c.isAlphanum || c == '_') = false) :
    isIdentifierChar cfg c = false := by
  unfold isIdentifierChar; rw [if_pos h1]; exact h2

theorem param_ok {p : Param} (hp : p.Written cfg) {r : Str} (hr : NotWord cfg r) :
    pParam cfg (p.display ++ r) = .ok r p := by
  have h1 : p.display ++ r = p.name ++ (':' :: ' ' :: (p.typ ++ r)) := by simp [Param.display]
  rw [h1]
  unfold pParam pBind
  rw [ident_ok cfg hp.1 (notWord_cons cfg (nonWord_notWord cfg (by decide) (by decide)))]
  have h2 : pWs pColon (':' :: ' ' :: (p.typ ++ r)) = .ok (p.typ ++ r) c!":" := by
    unfold pWs
    rw [show List.dropWhile isWs (':' :: ' ' :: (p.typ ++ r)) = ':' :: ' ' :: (p.typ ++ r) from rfl]
    have : pColon (':' :: ' ' :: (p.typ ++ r)) = .ok (' ' :: (p.typ ++ r)) c!":" := by
      simp [pColon, pReturnError, pTag]
    rw [this]
    simp only
    rw [List.dropWhile_cons, if_pos (by decide), dropWs_plain (hp.2.plain cfg)]
  simp only [h2]
  rw [ident_ok cfg hp.2 hr]
  rfl

theorem wsParam_ok {p : Param} (hp : p.Written cfg) {r : Str} (hr : NotWord cfg r) (hw : Plain r) :
    pWs (pParam cfg) (p.display ++ r) = .ok r p := by
  unfold pWs
  have : Plain (p.display ++ r) := by
    have : p.display ++ r = p.name ++ (c!": " ++ p.typ ++ r) := by simp [Param.display]
    rw [this]; exact hp.1.plain cfg
  rw [dropWs_plain this, param_ok cfg hp hr]
  simp only [dropWs_plain hw]

theorem indent_ok (level : Nat) (r : Str) : ∃ l, pIndent level (spaces level ++ r) = .ok r l := by
  have key : ∀ level start acc, ∃ l, countLoop (pTag c!"  ") start level (spaces level ++ r) acc = .ok r l := by
    intro level
    induction level with
    | zero => intro start acc; exact ⟨acc, rfl⟩
    | succ level ih =>
      intro start acc
      unfold countLoop
      have : pTag c!"  " (spaces (level + 1) ++ r) = .ok (spaces level ++ r) c!"  " := by
        simp [spaces_succ, pTag]
      rw [this]
      exact ih _ _
  exact key _ _ _

theorem preceded_error {p : Parser α} {q : Parser β} {i : Str} (h : ∃ c, p i = .error c) :
    ∃ c, pPreceded p q i = .error c := by
  obtain ⟨c, h⟩ := h
  exact ⟨c, by simp [pPreceded, pBind, h]⟩

theorem preceded_ok {p : Parser α} {q : Parser β} {i r : Str} (h : ∃ a, p i = .ok r a) :
    pPreceded p q i = q r := by
  obtain ⟨a, h⟩ := h
  simp [pPreceded, pBind, h]

theorem indent_error {level n : Nat} {r : Str} (hk : n < 2 * level) (hr : Plain r) :
    ∃ c, pIndent level (List.replicate n ' ' ++ r) = .error c := by
  have key : ∀ level n start acc, n < 2 * level →
      ∃ c, countLoop (pTag c!"  ") start level (List.replicate n ' ' ++ r) acc = .error c := by
    intro level
    induction level with
    | zero => intro n start acc hk; omega
    | succ level ih =>
      intro n start acc hk
      unfold countLoop
      have hc : ∀ c t, r = c :: t → c ≠ ' ' := fun c t h => by
        rintro rfl
        exact absurd (hr ' ' (by rw [h]; rfl)).1 (by decide)
      match n, hk with
      | 0, _ =>
        have : pTag c!"  " (List.replicate 0 ' ' ++ r) = .error (.code r .tag) := by
          cases r with
          | nil => rfl
          | cons c r => simp [pTag, Ne.symm (hc c r rfl)]
        rw [this]
        exact ⟨_, rfl⟩
      | 1, _ =>
        have : pTag c!"  " (List.replicate 1 ' ' ++ r) = .error (.code (' ' :: r) .tag) := by
          cases r with
          | nil => rfl
          | cons c r => simp [pTag, Ne.symm (hc c r rfl)]
        rw [this]
        exact ⟨_, rfl⟩
      | n + 2, hk =>
        have : pTag c!"  " (List.replicate (n + 2) ' ' ++ r) = .ok (List.replicate n ' ' ++ r) c!"  " := by
          simp [List.replicate_succ, pTag]
        rw [this]
        exact ih _ _ _ (by omega)
  exact key _ _ _ _ hk

/-- Behind the end of a block there is nothing with its indentation that does not begin with a blank. -/
theorem dedent_error {p : Parser α} (hp : ∀ n, ∃ c, p (List.replicate n ' ') = .error c) {level : Nat} {rest : Str} (h : Dedent level rest) :
    ∃ c, pPreceded (pIndent level) p rest = .error c := by
  obtain ⟨n, r, hk, rfl, hr⟩ := h
  by_cases hn : n < 2 * level
  · exact preceded_error (indent_error hn hr)
  · obtain rfl := hk.resolve_left hn
    have : List.replicate n ' ' ++ [] = spaces level ++ List.replicate (n - 2 * level) ' ' := by
      rw [List.append_nil, spaces, List.replicate_append_replicate]
      congr 1; omega
    rw [this, preceded_ok (indent_ok level _)]
    exact hp _

theorem queryParameter_ok {p : Param} (hp : p.Written cfg) (level : Nat) (r : Str) :
    pQueryParameter cfg level (spaces level ++ (c!"[" ++ p.display ++ c!"]" ++ r)) = .ok r p := by
  unfold pQueryParameter
  rw [preceded_ok (indent_ok level _)]
  rw [preceded_ok (r := p.display ++ (']' :: r)) ⟨'[', by simp [pChar]⟩]
  unfold pTerminated pBind
  rw [wsParam_ok cfg hp (notWord_cons cfg (nonWord_notWord cfg (by decide) (by decide)))
    (by intro c hc; simp at hc; subst hc; exact ⟨rfl, by decide⟩)]
  simp [pReturnError, pChar, pPure]

theorem segment_static {s : Str} (hs : Word cfg s) (level : Nat) {r : Str} (hr : NotWord cfg r) :
    pPathSegment cfg level (spaces level ++ (s ++ r)) = .ok r (.static s) := by
  unfold pPathSegment
  rw [preceded_ok (indent_ok level _)]
  have h1 : pChar '{' (s ++ r) = .error (.code (s ++ r) .char) := by
    obtain ⟨c, t, rfl, hc⟩ := hs.head
    have := (wordChar_notWs cfg hc).2.2.2.1
    simp [pChar, this]
  rw [returning_eq (by simp [pBraced, pPreceded, pBind, h1])]
  simp [pAlt, pMap, pBraced, pPreceded, pBind, h1, ident_ok cfg hs hr, pPure]

theorem segment_dynamic {p : Param} (hp : p.Written cfg) (level : Nat) (r : Str) :
    pPathSegment cfg level (spaces level ++ (c!"{" ++ p.display ++ c!"}" ++ r)) = .ok r (.dynamic p) := by
  unfold pPathSegment
  rw [preceded_ok (indent_ok level _)]
  have h1 : pChar '{' (c!"{" ++ p.display ++ c!"}" ++ r) = .ok (p.display ++ ('}' :: r)) '{' := by simp [pChar]
  have h2 := wsParam_ok cfg hp (r := '}' :: r) (notWord_cons cfg (nonWord_notWord cfg (by decide) (by decide)))
    (by intro c hc; simp at hc; subst hc; exact ⟨rfl, by decide⟩)
  rw [returning_eq (by simp [pBraced, pPreceded, pTerminated, pBind, h1, h2, pPure, pReturnError, pChar])]
  simp [pAlt, pMap, pBraced, pPreceded, pTerminated, pBind, h1, h2, pPure, pReturnError, pChar]

theorem segment_ok {seg : PathSegment} (hs : seg.Written cfg) (level : Nat) {r : Str} (hr : NotWord cfg r) :
    pPathSegment cfg level (spaces level ++ (seg.stringify ++ r)) = .ok r seg := by
  cases seg with
  | static s => exact segment_static cfg hs level hr
  | dynamic p => exact segment_dynamic cfg hs level r

theorem method_ok (m : Method) (r : Str) : pMethod cfg (m.display ++ ' ' :: r) = .ok (' ' :: r) m := by
  cases m <;>
  simp [pMethod, pAlt, pMap, pBind, pTagNoCase, Method.display, asciiLower, pPure, List.isPrefixOf,
    show (Char.ofNat 103) = 'g' from rfl, show (Char.ofNat 101) = 'e' from rfl]

theorem alt_ok {b : Bool} : ∀ {ps : List (Parser α)} {i rest : Str} {a : α}, pAlt b ps i = .ok rest a →
    ∃ p ∈ ps, p i = .ok rest a
  | [], _, _, _, h => by cases h
  | p :: ps, i, rest, a, h => by
    unfold pAlt at h
    split at h
    · cases h; rename_i e; exact ⟨p, by simp, e⟩
    · obtain ⟨q, hq, e⟩ := alt_ok h; exact ⟨q, by simp [hq], e⟩
    · split at h
      · obtain ⟨q, hq, e⟩ := alt_ok h; exact ⟨q, by simp [hq], e⟩
      · cases h

theorem alt_never_fails {b : Bool} {i : Str} : ∀ {ps : List (Parser α)}, (∀ p ∈ ps, ∀ c, p i ≠ .failure c) →
    ∀ c, pAlt b ps i ≠ .failure c
  | [], _, _ => fun h => by cases h
  | p :: ps, hp, c => by
    intro h
    unfold pAlt at h
    split at h
    · cases h
    · exact alt_never_fails (fun q hq => hp q (by simp [hq])) c h
    · rename_i e; exact hp p (by simp) _ e

theorem method_never_fails (i : Str) (c : Ctx) : pMethod cfg i ≠ .failure c := by
  refine alt_never_fails (fun p hp c => ?_) c
  simp only [List.mem_cons, List.not_mem_nil, or_false] at hp
  have : ∀ (m : Method) t, pMap (fun _ => m) (pTagNoCase t) i ≠ .failure c := by
    intro m t
    unfold pMap pBind pTagNoCase
    split <;> rename_i e <;> split at e <;> cases e <;> exact fun h => by cases h
  rcases hp with rfl | rfl | rfl | rfl <;> exact this _ _

/-- A verb leaves a rest that begins inside the text or right behind it. -/
theorem method_rest {s r rest : Str} {m : Method} (hs : ∀ c ∈ s, c ≠ ' ') 
    (h : pMethod cfg (s ++ '\n' :: r) = .ok rest m) : rest.head? ≠ some ' ' := by
  have key : ∀ t : Str, '\n' ∉ t.map asciiLower → ∀ rest a, pTagNoCase t (s ++ '\n' :: r) = .ok rest a →
      rest.head? ≠ some ' ' := by
    intro t ht rest a h
    unfold pTagNoCase at h
    split at h
    · rename_i hp
      cases h
      rw [List.isPrefixOf_iff_prefix] at hp
      have hlen : t.length ≤ s.length := by
        refine Nat.le_of_not_lt fun hlt => ?_
        obtain ⟨u, hu⟩ := hp
        rw [List.map_append, List.map_cons] at hu
        have h1 : (t.map asciiLower ++ u)[s.length]? = some '\n' := by
          rw [hu, List.getElem?_append_right (by simp)]
          simp [asciiLower]
        rw [List.getElem?_append_left (by simp; omega)] at h1
        exact ht (List.mem_of_getElem? h1)
      rw [List.drop_append_of_le_length hlen]
      cases hd : s.drop t.length with
      | nil => simp
      | cons c u =>
        have : c ∈ s := List.mem_of_mem_drop (i := t.length) (by rw [hd]; simp)
        simpa using hs c this
    · cases h
  have step : ∀ (t : Str) (m : Method) rest m', '\n' ∉ t.map asciiLower →
      pMap (fun _ => m) (pTagNoCase t) (s ++ '\n' :: r) = .ok rest m' → rest.head? ≠ some ' ' := by
    intro t m rest m' ht h
    unfold pMap pBind at h
    split at h
    · rename_i e; cases h; exact key t ht _ _ e
    · cases h
    · cases h
  obtain ⟨p, hp, h⟩ := alt_ok h
  simp only [List.mem_cons, List.not_mem_nil, or_false] at hp
  rcases hp with rfl | rfl | rfl | rfl <;> exact step _ _ _ _ (by decide) h

/-- The line of a child is not taken for a resource. -/
theorem resource_not_segment {seg : PathSegment} (hs : seg.Written cfg) (level : Nat) (r : Str) :
    ∃ c, pResource cfg level (spaces level ++ (seg.stringify ++ '\n' :: r)) = .error c := by
  unfold pResource
  rw [preceded_ok (indent_ok level _)]
  unfold pBind
  cases hm : pMethod cfg (seg.stringify ++ '\n' :: r) with
  | error c => exact ⟨c, rfl⟩
  | failure c => exact absurd hm (method_never_fails cfg _ c)
  | ok rest m =>
    have hh : rest.head? ≠ some ' ' := by
      cases seg with
      | static s =>
        refine method_rest cfg (fun c hc => ?_) hm
        have := (wordChar_notWs cfg ((wordChar_iff cfg c).2 (hs.2 c hc))).1
        rintro rfl
        cases this
      | dynamic p =>
        have : pMethod cfg ((PathSegment.dynamic p).stringify ++ '\n' :: r) =
            .error (.code ((PathSegment.dynamic p).stringify ++ '\n' :: r) .alt) := by
          simp [pMethod, pAlt, pMap, pBind, pTagNoCase, PathSegment.stringify, asciiLower]
        rw [this] at hm; cases hm
    cases rest with
    | nil => exact ⟨_, rfl⟩
    | cons c rest =>
      have : c ≠ ' ' := by simpa using hh
      simp [pChar, this]

theorem targetPath_ok {modules : List Str} {name : Str} (hm : ∀ m ∈ modules, Word cfg m) (hn : Word cfg name)
    (b : Bool) {r : Str} (hr : NotWord cfg r) (hc : Plain (r.dropWhile isWs)) :
    pTargetPath cfg b ((modules.map fun m => m ++ c!"::").flatten ++ (name ++ r)) = .ok r (b, modules, name) := by
  have hp : Tidy (pTerminated (pIdent cfg) (pWs (pTag c!"::"))) := (tidy_ident cfg).terminated (tidy_tag _).ws
  have hcolon : ∀ i : Str, NotWord cfg (':' :: i) := fun i =>
    notWord_cons cfg (nonWord_notWord cfg (by decide) (by decide))
  have h1 : ∃ c, pTerminated (pIdent cfg) (pWs (pTag c!"::")) (name ++ r) = .error c := by
    unfold pTerminated pBind
    rw [ident_ok cfg hn hr]
    have : pTag c!"::" (r.dropWhile isWs) = .error (.code (r.dropWhile isWs) .tag) := by
      cases hd : r.dropWhile isWs with
      | nil => rfl
      | cons c t =>
        have := (hc c (by rw [hd]; rfl)).2
        simp [pTag, Ne.symm this]
    simp [pWs, this]
  obtain ⟨c, h1⟩ := h1
  obtain ⟨_, h2⟩ := many0_list hp (pr := fun m => m ++ c!"::")
    (S := fun i => Plain i) (rest := name ++ r) (hn.plain cfg) h1 modules (by simp)
    (fun m h i _ => by rw [List.append_assoc]; exact (hm m h).plain cfg)
    (fun m h i hi => by
      rw [List.append_assoc]
      unfold pTerminated pBind
      rw [ident_ok cfg (hm m h) (r := c!"::" ++ i) (hcolon _)]
      have : pWs (pTag c!"::") (c!"::" ++ i) = .ok i c!"::" := by
        unfold pWs
        rw [show List.dropWhile isWs (c!"::" ++ i) = c!"::" ++ i from rfl]
        have : pTag c!"::" (c!"::" ++ i) = .ok i c!"::" := by simp [pTag]
        rw [this]
        simp only [dropWs_plain hi]
      simp only [this, pPure])
  unfold pTargetPath pBind
  rw [h2]
  simp only [ident_ok cfg hn hr]
  rfl

/-- A target as printed. -/
theorem target_ok {res : Resource} (hres : res.Written cfg) {r : Str} (hr : NotWord cfg r)
    (hc : Plain (r.dropWhile isWs)) :
    (pBind (pChar ' ') fun _ => pTarget cfg) ((if res.isRedirect then c!" ->" else c!"") ++ (c!" " ++
      ((res.modules.map fun m => m ++ c!"::").flatten ++ (res.name ++ r)))) =
      .ok r (res.isRedirect, res.modules, res.name) := by
  have h := fun b => targetPath_ok cfg hres.2.1 hres.1 b hr hc
  have hpl : Plain ((res.modules.map fun m => m ++ c!"::").flatten ++ (res.name ++ r)) := by
    cases hm : res.modules with
    | nil => exact hres.1.plain cfg
    | cons m ms =>
      have := (hres.2.1 m (by simp [hm])).plain cfg (r := c!"::" ++ (ms.map fun m => m ++ c!"::").flatten ++ (res.name ++ r))
      simpa using this
  generalize hi : (res.modules.map fun m => m ++ c!"::").flatten ++ (res.name ++ r) = i at h hpl
  cases hb : res.isRedirect with
  | true =>
    have h1 : pWs (pTag c!"->") ('-' :: '>' :: ' ' :: i) = .ok i c!"->" := by
      unfold pWs
      rw [show List.dropWhile isWs ('-' :: '>' :: ' ' :: i) = '-' :: '>' :: ' ' :: i from rfl]
      have : pTag c!"->" ('-' :: '>' :: ' ' :: i) = .ok (' ' :: i) c!"->" := by simp [pTag]
      rw [this]
      simp only
      rw [List.dropWhile_cons, if_pos (by decide), dropWs_plain hpl]
    simp [pBind, pChar, pTarget, pAlt, pPreceded, h1, h]
  | false =>
    have h1 : pTag c!"->" i = .error (.code i .tag) := by
      have hhead : i.head? ≠ some '-' := by
        rw [← hi]
        cases hm : res.modules with
        | nil =>
          obtain ⟨c, t, he, hw⟩ := hres.1.head
          have := (wordChar_notWs cfg hw).2.2.2.2.2
          simpa [he] using this
        | cons m ms =>
          obtain ⟨c, t, he, hw⟩ := (hres.2.1 m (by simp [hm])).head
          have := (wordChar_notWs cfg hw).2.2.2.2.2
          simpa [he] using this
      cases i with
      | nil => rfl
      | cons c t =>
        have : c ≠ '-' := by simpa using hhead
        simp [pTag, Ne.symm this]
    have h2 : pWs (pTag c!"->") i = .error (.code i .tag) := by
      unfold pWs
      rw [dropWs_plain hpl, h1]
    simp [pBind, pChar, pTarget, pAlt, pPreceded, h2, h]

/-- The lines of query parameters, behind a newline instead of before it. -/
theorem params_shift (level : Nat) : ∀ qs : List Param,
    (qs.map fun param => c!"\n" ++ indent level ++ c!"[" ++ param.display ++ c!"]").flatten ++ c!"\n" =
      '\n' :: stringifyParams qs level
  | [] => rfl
  | q :: qs => by
    have := params_shift level qs
    simp only [List.map_cons, List.flatten_cons, List.append_assoc] at this ⊢
    rw [this]
    simp [stringifyParams]

theorem queryLines_ok {qs : List Param} (hq : ∀ q ∈ qs, q.Written cfg) {level : Nat} (hl : qs ≠ [] → level ≤ 7)
    {rest : Str} (hr : NoEol rest) {p : Parser Unit} (hp : Tidy p)
    (hnl : ∀ r, NoEol r → p ('\n' :: r) = .ok r ())
    (he : ∃ c, pQueryParameter cfg level rest = .error c) :
    pMany0 (pTerminated (pQueryParameter cfg level) p) (stringifyParams qs level ++ rest) = .ok rest qs ∧
      NoEol (stringifyParams qs level ++ rest) := by
  cases hqs : qs with
  | nil =>
    obtain ⟨c, he⟩ := he
    refine ⟨?_, hr⟩
    rw [many0_eq ((tidy_queryParameter cfg level).terminated hp)]
    simp [pTerminated, pBind, stringifyParams, he]
  | cons q0 qs0 =>
    have hl := hl (by simp [hqs])
    rw [← hqs]
    obtain ⟨c, he⟩ := he
    obtain ⟨h1, h2⟩ := many0_list ((tidy_queryParameter cfg level).terminated hp)
      (pr := fun q => indent level ++ c!"[" ++ q.display ++ c!"]\n") (S := NoEol) hr (c := c)
      (by simp [pTerminated, pBind, he]) qs (by simp)
      (fun q _ r _ => by
        rw [indent_eq hl]
        simp only [List.append_assoc]
        refine noEol_spaces ?_
        intro c hc; simp at hc; subst hc; rfl)
      (fun q hq' r hr => by
        rw [indent_eq hl]
        have : spaces level ++ c!"[" ++ q.display ++ c!"]\n" ++ r =
            spaces level ++ (c!"[" ++ q.display ++ c!"]" ++ '\n' :: r) := by simp
        rw [this]
        unfold pTerminated pBind
        rw [queryParameter_ok cfg (hq q hq')]
        simp [hnl r hr, pPure])
    exact ⟨h2, h1⟩

theorem char_blanks {c : Char} (hc : c ≠ ' ') (q : Parser β) (n : Nat) : ∃ e, pPreceded (pChar c) q (List.replicate n ' ') = .error e := by
  cases n with
  | zero => exact ⟨_, rfl⟩
  | succ n => exact ⟨.code (List.replicate (n + 1) ' ') .char, by simp [pPreceded, pBind, List.replicate_succ, pChar, Ne.symm hc]⟩

theorem queryParameter_end {level : Nat} {rest : Str} (h : Dedent level rest) : ∃ c, pQueryParameter cfg level rest = .error c :=
  dedent_error (char_blanks (by decide) _) h

theorem resource_ok {res : Resource} (hres : res.Written cfg) {level : Nat} (hl : level ≤ 7)
    (hl' : res.queryParameters ≠ [] → level + 1 ≤ 7) {rest : Str} (hr : Dedent (level + 1) rest) :
    pResource cfg level (res.stringify level ++ rest) = .ok rest res := by
  obtain ⟨h1, h2⟩ := queryLines_ok cfg hres.2.2 hl' hr.noEol tidy_requireNewline
    (fun r h => requireNewline_ok h) (queryParameter_end cfg hr)
  have hstr : res.stringify level ++ rest = spaces level ++ (res.method.display ++ (
      (if res.isRedirect then c!" ->" else c!"") ++ (c!" " ++
      ((res.modules.map fun m => m ++ c!"::").flatten ++ (res.name ++
        ('\n' :: (stringifyParams res.queryParameters (level + 1) ++ rest))))))) := by
    have := params_shift (level + 1) res.queryParameters
    simp only [Resource.stringify, indent_eq hl, List.append_assoc] at this ⊢
    rw [← List.append_assoc _ c!"\n" rest]
    rw [this]
    simp
  rw [hstr]
  unfold pResource
  rw [preceded_ok (indent_ok level _)]
  have hm : ∀ i, pMethod cfg (res.method.display ++ ((if res.isRedirect then c!" ->" else c!"") ++ (c!" " ++ i))) =
      .ok ((if res.isRedirect then c!" ->" else c!"") ++ (c!" " ++ i)) res.method := by
    intro i
    cases res.isRedirect
    · exact method_ok cfg res.method i
    · exact method_ok cfg res.method _
  have hdrop : Plain (List.dropWhile isWs ('\n' :: (stringifyParams res.queryParameters (level + 1) ++ rest))) := by
    rw [List.dropWhile_cons, if_pos (by decide)]
    cases hq : res.queryParameters with
    | nil => exact hr.dropWs
    | cons q qs =>
      have hl' := hl' (by simp [hq])
      simp only [stringifyParams, List.map_cons, List.flatten_cons, indent_eq hl', List.append_assoc]
      rw [dropWs_spaces]
      rw [dropWs_plain]
      all_goals (intro c hc; simp at hc; subst hc; exact ⟨rfl, by decide⟩)
  have ht := target_ok cfg hres (r := '\n' :: (stringifyParams res.queryParameters (level + 1) ++ rest))
    (notWord_cons cfg (nonWord_notWord cfg (by decide) (by decide))) hdrop
  generalize hi : (if res.isRedirect then c!" ->" else c!"") ++ (c!" " ++
      ((res.modules.map fun m => m ++ c!"::").flatten ++ (res.name ++
        ('\n' :: (stringifyParams res.queryParameters (level + 1) ++ rest))))) = i at ht
  have hm' : pMethod cfg (res.method.display ++ i) = .ok i res.method := by rw [← hi]; exact hm _
  unfold pBind at ht
  unfold pBind
  rw [hm']
  simp only
  split at ht
  · simp only [ht, requireNewline_ok h2, h1, pPure]
  · cases ht
  · cases ht

/-! ## Blocks -/

/-- The printer can indent every line of `r` if it is printed at `level`. -/
def Deep (level : Nat) (r : Routes) : Prop :=
  ∀ segs query node, HasRoute r segs query node →
    segs.length + level ≤ 7 ∧ ∀ x ∈ node.resources, x.queryParameters ≠ [] → segs.length + level + 1 ≤ 7

theorem Deep.child {level : Nat} {r : Routes} (h : Deep level r) {seg : PathSegment} {sub : Routes}
    (hm : NestedRoutes.mk seg sub ∈ r.routes) : Deep (level + 1) sub := by
  intro segs q node hr
  obtain ⟨h1, h2⟩ := h _ _ _ (.child hm hr)
  simp only [List.length_cons] at h1 h2
  exact ⟨by omega, fun x hx hq => by have := h2 x hx hq; omega⟩

theorem Deep.level {level : Nat} {r : Routes} (h : Deep level r) : level ≤ 7 := by
  have := (h _ _ _ (.here _)).1
  simpa using this

theorem segment_plain {seg : PathSegment} (hs : seg.Written cfg) (r : Str) : Plain (seg.stringify ++ r) := by
  cases seg with
  | static s => exact Word.plain cfg hs
  | dynamic p => intro c hc; simp [PathSegment.stringify] at hc; subst hc; exact ⟨rfl, by decide⟩

theorem dedent_spaces {level : Nat} {r : Str} (h : Plain r) : Dedent (level + 1) (spaces level ++ r) :=
  ⟨2 * level, r, .inl (by omega), rfl, h⟩

theorem method_plain (m : Method) (r : Str) : Plain (m.display ++ r) := by
  intro c hc
  cases m <;> simp [Method.display] at hc <;> subst hc <;> exact ⟨rfl, by decide⟩

/-- The text of a resource starts with its indentation. -/
theorem resource_dedent (res : Resource) {level : Nat} (hl : level ≤ 7) (r : Str) :
    Dedent (level + 1) (res.stringify level ++ r) := by
  unfold Resource.stringify
  rw [indent_eq hl]
  simp only [List.append_assoc]
  exact dedent_spaces (method_plain _ _)

theorem stringifyNested_eq (level : Nat) : ∀ ns : List NestedRoutes,
    stringifyNested ns level = (ns.map fun n => n.stringify level).flatten
  | [] => by simp [stringifyNested]
  | n :: ns => by simp [stringifyNested, stringifyNested_eq level ns]

theorem nested_stringify {seg : PathSegment} {sub : Routes} {level : Nat} (hl : level ≤ 7) (r : Str) :
    (NestedRoutes.mk seg sub).stringify level ++ r =
      spaces level ++ (seg.stringify ++ '\n' :: (sub.stringify (level + 1) ++ r)) := by
  simp [NestedRoutes.stringify, indent_eq hl]

theorem pathSegment_error {level : Nat} {rest : Str} (h : Dedent level rest) :
    ∃ c, pPathSegment cfg level rest = .error c := by
  refine dedent_error (fun n => ?_) h
  obtain ⟨e, he⟩ := char_blanks (c := '{') (by decide)
    (pTerminated (pWs (pParam cfg)) (pReturnError (.custom c!"Expected a \"}\"") (pChar '}'))) n
  have hb : pBraced cfg (List.replicate n ' ') = .error e := he
  have hi : ∃ e, pIdent cfg (List.replicate n ' ') = .error e := by
    cases n with
    | zero => exact ⟨_, rfl⟩
    | succ n =>
      have : isIdentifierChar cfg ' ' = false := nonWord_notWord cfg (by decide) (by decide)
      exact ⟨.code (List.replicate (n + 1) ' ') .takeWhile1, by simp [pIdent, pTakeWhile1, List.replicate_succ, this]⟩
  obtain ⟨e', hi⟩ := hi
  rw [returning_eq (by simp [hb])]
  exact ⟨.code (List.replicate n ' ') .alt, by simp [pAlt, pMap, pBind, hb, hi]⟩

theorem nested_error {level : Nat} {rest : Str} (h : Dedent level rest) :
    ∃ c, nestedRoutes cfg level rest = .error c := by
  obtain ⟨c, hc⟩ := pathSegment_error cfg h
  exact ⟨c, by rw [nestedRoutes_eq]; simp [pBind, hc]⟩

theorem resource_error {level : Nat} {rest : Str} (h : Dedent level rest) :
    ∃ c, pResource cfg level rest = .error c := by
  refine dedent_error (fun n => ?_) h
  have hm : ∀ n, pMethod cfg (List.replicate n ' ') = .error (.code (List.replicate n ' ') .alt) := by
    intro n
    cases n with
    | zero => rfl
    | succ n =>
      have hg : ¬ asciiLower 'g' = asciiLower ' ' := by decide
      have hp : ¬ asciiLower 'p' = asciiLower ' ' := by decide
      have hd : ¬ asciiLower 'd' = asciiLower ' ' := by decide
      simp [pMethod, pAlt, pMap, pBind, pTagNoCase, List.replicate_succ, hg, hp, hd]
  exact ⟨.code (List.replicate n ' ') .alt, by simp only [pBind, hm]⟩

theorem queryParameter_error {level : Nat} {r : Str} (h : r.head? ≠ some '[') :
    ∃ c, pQueryParameter cfg level (spaces level ++ r) = .error c := by
  unfold pQueryParameter
  rw [preceded_ok (indent_ok level _)]
  apply preceded_error
  cases r with
  | nil => exact ⟨_, rfl⟩
  | cons c r =>
    have : c ≠ '[' := by simpa using h
    exact ⟨.code (c :: r) .char, by simp [pChar, this]⟩

theorem segment_head {seg : PathSegment} (hs : seg.Written cfg) (r : Str) :
    (seg.stringify ++ r).head? ≠ some '[' := by
  cases seg with
  | static s =>
    obtain ⟨c, t, rfl, hc⟩ := Word.head cfg hs
    have := (wordChar_notWs cfg hc).2.2.2.2.1
    simpa [PathSegment.stringify] using this
  | dynamic p => simp [PathSegment.stringify]

/-- Resources and children as printed. -/
theorem block_ok {rs : List Resource} {ns : List NestedRoutes} {qs : List Param} {level : Nat}
    (hw : (Routes.mk rs ns qs).Written cfg) (hd : Deep level (.mk rs ns qs)) {rest : Str}
    (hr : Dedent level rest)
    (ih : ∀ n ∈ ns, ∀ r, Dedent (level + 1) r → nestedRoutes cfg level (n.stringify level ++ r) = .ok r n) :
    pRoutesWith cfg (nestedRoutes cfg level) level ((Routes.mk rs ns qs).stringify level ++ rest) =
      .ok rest (.mk rs ns qs) := by
  obtain ⟨hne, hrs, hqs, hns⟩ := (written_mk cfg).1 hw
  have hl := hd.level
  have hr1 := hr.mono (Nat.le_succ level)
  -- children
  have hchild : ∀ n ∈ ns, ∀ r, Dedent (level + 1) (n.stringify level ++ r) := by
    rintro ⟨seg, sub⟩ hn r
    rw [nested_stringify hl]
    exact dedent_spaces (segment_plain cfg (hns _ hn).1 _)
  have hnil : ∀ n ∈ ns, n.stringify level ≠ [] := by
    rintro ⟨seg, sub⟩ hn h
    have := congrArg List.length h
    simp [NestedRoutes.stringify] at this
  obtain ⟨ce, hce⟩ := nested_error cfg hr
  have hmanyN : ns ≠ [] → pMany1 (nestedRoutes cfg level) (stringifyNested ns level ++ rest) = .ok rest ns := by
    intro hn
    rw [stringifyNested_eq]
    exact many1_list (tidy_nested cfg level) (pr := fun n => n.stringify level) (S := Dedent (level + 1)) hr1 hce ns hn
      hnil (fun n hn r _ => hchild n hn r) ih
  have hrestN : Dedent (level + 1) (stringifyNested ns level ++ rest) := by
    cases ns with
    | nil => exact hr1
    | cons n ns => rw [stringifyNested, List.append_assoc]; exact hchild n (by simp) _
  have hresStop : ∃ c, pResource cfg level (stringifyNested ns level ++ rest) = .error c := by
    cases ns with
    | nil => exact resource_error cfg hr
    | cons n ns =>
      obtain ⟨seg, sub⟩ := n
      rw [stringifyNested, List.append_assoc, nested_stringify hl]
      exact resource_not_segment cfg (hns (.mk seg sub) (by simp)).1 level _
  -- resources and children
  have hrnr : pResourcesAndRoutes cfg (nestedRoutes cfg level) level
      (stringifyResources rs level ++ (stringifyNested ns level ++ rest)) = .ok rest (rs, ns) := by
    unfold pResourcesAndRoutes pReturnError
    obtain ⟨cs, hcs⟩ := hresStop
    cases hrs0 : rs with
    | nil =>
      have hn : ns ≠ [] := by
        rcases hne with h | h
        · exact absurd hrs0 h
        · exact h
      simp only [stringifyResources, List.map_nil, List.flatten_nil, List.nil_append]
      have h1 : pMany1 (pResource cfg level) (stringifyNested ns level ++ rest) =
          .error (.code (stringifyNested ns level ++ rest) .many1) := by
        rw [many1_eq, hcs]
      simp [pAlt, pBind, h1, hmanyN hn, pPure]
    | cons r0 rs0 =>
      rw [← hrs0]
      have h1 : pMany1 (pResource cfg level) (stringifyResources rs level ++ (stringifyNested ns level ++ rest)) =
          .ok (stringifyNested ns level ++ rest) rs := by
        refine many1_list (tidy_resource cfg level) (pr := fun x => x.stringify level) (S := Dedent (level + 1))
          hrestN hcs rs (by simp [hrs0]) ?_ ?_ ?_
        · intro x _ h
          have := congrArg List.length h
          simp [Resource.stringify] at this
        · intro x _ r _; exact resource_dedent x hl r
        · intro x hx r hr
          exact resource_ok cfg (hrs x hx) hl (fun hq => by
            have := (hd _ _ _ (.here _)).2 x hx hq
            simpa using this) hr
      have h2 : pAlt cfg.altFail [pPreceded (pMany0 pLineEnding) (pMany1 (nestedRoutes cfg level)), pPure []]
          (stringifyNested ns level ++ rest) = .ok rest ns := by
        have h3 := hrestN.noEol.many0
        cases hns0 : ns with
        | nil =>
          rw [hns0] at h3
          have h4 : pMany1 (nestedRoutes cfg level) rest = .error (.code rest .many1) := by
            rw [many1_eq, hce]
          simp only [stringifyNested, List.nil_append] at h3 ⊢
          simp [pAlt, pPreceded, pBind, h3, h4, pPure]
        | cons n0 ns0 =>
          rw [← hns0]
          simp [pAlt, pPreceded, pBind, h3, hmanyN (by simp [hns0])]
      simp only [pAlt, pBind, h1]
      simp only [pAlt] at h2
      rw [h2]
      rfl
  -- query parameters
  have hstop : ∃ c, pQueryParameter cfg level
      (stringifyResources rs level ++ (stringifyNested ns level ++ rest)) = .error c := by
    cases hrs0 : rs with
    | nil =>
      cases hns0 : ns with
      | nil => exact absurd hne (by simp [hrs0, hns0])
      | cons n ns1 =>
        obtain ⟨seg, sub⟩ := n
        simp only [stringifyResources, List.map_nil, List.flatten_nil, List.nil_append]
        rw [stringifyNested, List.append_assoc, nested_stringify hl]
        exact queryParameter_error cfg (segment_head cfg (hns (.mk seg sub) (by simp [hns0])).1 _)
    | cons x rs1 =>
      simp only [stringifyResources, List.map_cons, List.flatten_cons, List.append_assoc, Resource.stringify,
        indent_eq hl]
      refine queryParameter_error cfg ?_
      cases x.method <;> simp [Method.display]
  have hstart : NoEol (stringifyResources rs level ++ (stringifyNested ns level ++ rest)) := by
    cases hrs0 : rs with
    | nil => exact hrestN.noEol
    | cons x rs1 =>
      simp only [stringifyResources, List.map_cons, List.flatten_cons, List.append_assoc]
      exact (resource_dedent x hl _).noEol
  obtain ⟨h1, _⟩ := queryLines_ok cfg (p := pMap (fun _ => ()) (pMany1 pLineEnding)) hqs (fun _ => hl) hstart
    (tidy_lineEnding.many1.map _) (fun r h => by simp [pMap, pBind, h.many1, pPure]) hstop
  have h2 : pMany0 (pTerminated (pQueryParameter cfg level) (pMany1 pLineEnding)) =
      pMany0 (pTerminated (pQueryParameter cfg level) (pMap (fun _ => ()) (pMany1 pLineEnding))) := by
    congr 1
    funext i
    unfold pTerminated pMap pBind
    cases pQueryParameter cfg level i with
    | error c => rfl
    | failure c => rfl
    | ok r a =>
      simp only
      cases pMany1 pLineEnding r <;> rfl
  have hstr : (Routes.mk rs ns qs).stringify level ++ rest = stringifyParams qs level ++
      (stringifyResources rs level ++ (stringifyNested ns level ++ rest)) := by
    simp [Routes.stringify]
  rw [hstr]
  unfold pRoutesWith
  rw [h2]
  unfold pBind
  rw [h1]
  simp only [hrnr]
  rfl

mutual
/-- A printed block is read back. -/
theorem routes_print : ∀ (r : Routes) (level : Nat) (rest : Str), r.Written cfg → Deep level r →
    Dedent level rest →
    pRoutesWith cfg (nestedRoutes cfg level) level (r.stringify level ++ rest) = .ok rest r
  | .mk rs ns qs, level, rest, hw, hd, hr =>
    block_ok cfg hw hd hr (nestedAll_print ns level fun n hn =>
      ⟨((written_mk cfg).1 hw).2.2.2 n hn, hd.level, hd.child (seg := n.pathSegment) (sub := n.routes)
        (by cases n; exact hn)⟩)
/-- Printed children are read back. -/
theorem nestedAll_print : ∀ (ns : List NestedRoutes) (level : Nat),
    (∀ n ∈ ns, (n.pathSegment.Written cfg ∧ n.routes.Written cfg) ∧ level ≤ 7 ∧ Deep (level + 1) n.routes) →
    ∀ n ∈ ns, ∀ r, Dedent (level + 1) r → nestedRoutes cfg level (n.stringify level ++ r) = .ok r n
  | [], _, _, _, hn => by cases hn
  | n0 :: ns, level, h, n, hn => by
    by_cases he : n = n0
    · rw [he]
      obtain ⟨h1, h2, h3⟩ := h n0 (List.mem_cons_self ..)
      exact fun r hr => nested_print n0 level r h1.1 h1.2 h2 h3 hr
    · exact nestedAll_print ns level (fun m hm => h m (List.mem_cons_of_mem _ hm)) n
        ((List.mem_cons.1 hn).resolve_left he)
/-- A printed child is read back. -/
theorem nested_print : ∀ (n : NestedRoutes) (level : Nat) (rest : Str), n.pathSegment.Written cfg →
    n.routes.Written cfg → level ≤ 7 → Deep (level + 1) n.routes → Dedent (level + 1) rest →
    nestedRoutes cfg level (n.stringify level ++ rest) = .ok rest n
  | .mk seg sub, level, rest, h1, h2, h3, h4, h5 => by
    have ih := routes_print sub (level + 1) rest h2 h4 h5
    rw [nested_stringify h3, nestedRoutes_eq]
    have hstart : NoEol (sub.stringify (level + 1) ++ rest) := by
      obtain ⟨rs, ns, qs⟩ := sub
      obtain ⟨hne, _, _, hns⟩ := (written_mk cfg).1 h2
      have hl := h4.level
      simp only [Routes.stringify]
      cases qs with
      | cons q qs =>
        simp only [stringifyParams, List.map_cons, List.flatten_cons, List.append_assoc, indent_eq hl]
        refine noEol_spaces ?_
        intro c hc; simp at hc; subst hc; rfl
      | nil =>
        cases rs with
        | cons x rs =>
          simp only [stringifyParams, stringifyResources, List.map_cons, List.flatten_cons, List.append_assoc,
            List.map_nil, List.flatten_nil, List.nil_append]
          exact (resource_dedent x hl _).noEol
        | nil =>
          cases ns with
          | nil => simp at hne
          | cons n ns =>
            obtain ⟨seg', sub'⟩ := n
            simp only [stringifyParams, stringifyResources, stringifyNested, List.append_assoc, List.map_nil,
              List.flatten_nil, List.nil_append]
            rw [nested_stringify hl]
            exact noEol_spaces (segment_plain cfg (hns (.mk seg' sub') (by simp)).1 _).noEol
    unfold pBind
    rw [segment_ok cfg (seg := seg) h1 level (notWord_cons cfg (nonWord_notWord cfg (by decide) (by decide)))]
    simp only [hstart.many1, pReturnError, ih]
    rfl
end

end Wayfinder
