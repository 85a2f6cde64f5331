import Verif.Proofs.Text
/-!
# A file is read only if its names are names

The converse of the theorems of `Read` and `Decl`: where the reader succeeds on tokens that were written for words, these words
are names.
-/

namespace Wayfinder.Rust

theorem readName_word {x : Str} {ts : List Tok} {r : Str × List Tok} (e : readName (.word x :: ts) = some r) : isName x = true := by
  simp only [readName] at e
  split at e
  · assumption
  · cases e

theorem CapsIn.name {x : Str} (h : CapsIn Word x) (hn : isName x = true) : Name x := by
  rcases h with h | ⟨rfl, _⟩
  · exact h.name hn
  · exact absurd hn (by decide)

theorem readName_caps {x : Str} {ts : List Tok} {r : Str × List Tok} (e : readName (wd x ++ ts) = some r)
    (h : readName ts = none) : isName x = true := by
  by_cases hx : x = []
  · subst hx
    rw [wd_nil, List.nil_append, h] at e
    cases e
  · rw [wd, if_neg hx] at e
    exact readName_word e

theorem readPath_word {x : Str} {t : Tok} {ts : List Tok} {r : List Str × List Tok} (e : readPath (.word x :: t :: ts) = some r) :
    isName x = true := by
  rw [readPath] at e
  split at e
  · assumption
  · cases e

theorem readPath_caps {x c : Str} {ts : List Tok} {r : List Str × List Tok} (e : readPath (wd x ++ .op c :: ts) = some r) :
    isName x = true := by
  by_cases hx : x = []
  · subst hx
    simp [wd_nil, readPath] at e
  · rw [wd, if_neg hx] at e
    exact readPath_word e

theorem readPath_further {x : Str} {ts : List Tok} {r : List Str × List Tok} (e : readPath (.word x :: .op c!"::" :: ts) = some r) :
    isName x = true ∧ ∃ r', readPath ts = some r' := by
  have h := readPath_word e
  rw [readPath, if_pos h, if_pos rfl, Option.map_eq_some_iff] at e
  obtain ⟨r', e, _⟩ := e
  exact ⟨h, r', e⟩

theorem readPath_modules : ∀ {ms : List Str} {ts : List Tok} {r : List Str × List Tok}, readPath (modsToks ms ++ ts) = some r →
    (∀ m ∈ ms, isName (toSnakeCase m) = true) ∧ ∃ r', readPath ts = some r'
  | [], ts, r, e => ⟨by simp, r, e⟩
  | m :: ms, ts, r, e => by
    simp only [modsToks, List.flatMap_cons, List.cons_append, List.nil_append] at e
    obtain ⟨h1, r', e⟩ := readPath_further e
    obtain ⟨h2, h3⟩ := readPath_modules (ms := ms) e
    exact ⟨by simpa using ⟨h1, h2⟩, h3⟩

theorem readFields_names : ∀ {cs : List Param} {xs : List Str} {ts : List Tok} {r : List (Str × Bool) × List Tok},
    readFields ((cs.flatMap fun p => [.word p.name, .op [',']]) ++
      (xs.flatMap fun x => [.word x, .op [':'], .word c!"None", .op [',']]) ++ .op ['}'] :: ts) = some r →
    (∀ p ∈ cs, isName p.name = true) ∧ ∀ x ∈ xs, isName x = true
  | [], [], _, _, _ => by simp
  | [], x :: xs, ts, r, e => by
    simp only [List.flatMap_nil, List.nil_append, List.flatMap_cons, List.cons_append, readFields] at e
    split at e
    · rename_i hx
      obtain ⟨r', e, _⟩ := Option.map_eq_some_iff.1 e
      have ih := (readFields_names (cs := []) (xs := xs) (ts := ts) (r := r') (by simpa using e)).2
      exact ⟨by simp, by simpa using ⟨hx, ih⟩⟩
    · cases e
  | p :: cs, xs, ts, r, e => by
    simp only [List.flatMap_cons, List.cons_append, List.nil_append, readFields] at e
    split at e
    · rename_i hx
      obtain ⟨r', e, _⟩ := Option.map_eq_some_iff.1 e
      have ih := readFields_names (cs := cs) (xs := xs) (ts := ts) (r := r') e
      exact ⟨by simpa using ⟨hx, ih.1⟩, ih.2⟩
    · cases e

theorem readExpr_path {n : Nat} {ts : List Tok} {r : Expr × List Tok} (e : readExpr n ts = some r) : ∃ r', readPath ts = some r' := by
  cases n with
  | zero => simp [readExpr] at e
  | succ n =>
    cases h : readPath ts with
    | none => simp [readExpr, h] at e
    | some r' => exact ⟨r', rfl⟩

theorem readExpr_literal {n : Nat} {a : MethodArm} (h : ArmNamed Word a) {ts : List Tok} {r : Expr × List Tok}
    (e : readExpr n (modsToks a.modules ++ (wd (toCapsCase a.name) ++ .op ['{'] ::
      ((a.captures.flatMap fun p => [.word p.name, .op [',']]) ++
      (a.nones.flatMap fun x => [.word x, .op [':'], .word c!"None", .op [',']]) ++ .op ['}'] :: ts))) = some r) :
    (∀ m ∈ a.modules, isName (toSnakeCase m) = true) ∧ isName (toCapsCase a.name) = true ∧
    (∀ p ∈ a.captures, isName p.name = true) ∧ ∀ x ∈ a.nones, isName x = true := by
  obtain ⟨_, e1⟩ := readExpr_path e
  obtain ⟨h1, _, e2⟩ := readPath_modules e1
  have h2 := readPath_caps e2
  cases n with
  | zero => simp [readExpr] at e
  | succ n =>
    rw [readExpr, readPath_struct (fun m hm => (h.1 m hm).1.name (h1 m hm)) (h.2.1.name h2)] at e
    simp only [Option.map_eq_some_iff] at e
    obtain ⟨r', e, _⟩ := e
    obtain ⟨h3, h4⟩ := readFields_names e
    exact ⟨h1, h2, h3, h4⟩

theorem readExpr_names {a : MethodArm} (h : ArmNamed Word a) : ∀ {ms pre : List Str} {n : Nat} {ts : List Tok} {r : Expr × List Tok},
    (∀ m ∈ pre, Word (toSnakeCase m)) → (∀ m ∈ ms, Word (toSnakeCase m) ∧ CapsIn Word (toCapsCase m)) →
    readExpr n (valueToks a pre ms ++ ts) = some r →
    (∀ m ∈ ms, isName (toCapsCase m) = true) ∧ (∀ m ∈ a.modules, isName (toSnakeCase m) = true) ∧
    isName (toCapsCase a.name) = true ∧ (∀ p ∈ a.captures, isName p.name = true) ∧ ∀ x ∈ a.nones, isName x = true
  | [], pre, 0, ts, r, hp, hm, e => by simp [readExpr] at e
  | _ :: _, pre, 0, ts, r, hp, hm, e => by simp [readExpr] at e
  | [], pre, n + 1, ts, r, hp, hm, e => by
    have heq : valueToks a pre [] ++ ts = modsToks a.modules ++ (toks c!"Route::" ++ (wd (toCapsCase a.name) ++ .op ['('] ::
        (modsToks a.modules ++ (wd (toCapsCase a.name) ++ .op ['{'] ::
        ((a.captures.flatMap fun p => [.word p.name, .op [',']]) ++
        (a.nones.flatMap fun x => [.word x, .op [':'], .word c!"None", .op [',']]) ++ .op ['}'] :: .op [')'] :: ts))))) := by
      have e1 : toks c!"{" = [.op ['{']] := rfl
      have e2 : toks c!"}" = [.op ['}']] := rfl
      have e3 : toks c!")" = [.op [')']] := rfl
      simp [valueToks, nestToks, e1, e2, e3]
    rw [heq] at e
    obtain ⟨_, e1⟩ := readExpr_path e
    obtain ⟨h1, _, e2⟩ := readPath_modules e1
    have e3 : readPath (.word c!"Route" :: .op c!"::" :: (wd (toCapsCase a.name) ++ .op ['('] ::
        (modsToks a.modules ++ (wd (toCapsCase a.name) ++ .op ['{'] ::
        ((a.captures.flatMap fun p => [.word p.name, .op [',']]) ++
        (a.nones.flatMap fun x => [.word x, .op [':'], .word c!"None", .op [',']]) ++ .op ['}'] :: .op [')'] :: ts))))) = some _ := e2
    obtain ⟨_, _, e4⟩ := readPath_further e3
    have h2 := readPath_caps e4
    rw [readExpr, readPath_route (fun m hm => (h.1 m hm).1.name (h1 m hm)) (h.2.1.name h2)] at e
    simp only at e
    split at e
    · rename_i e5
      exact ⟨by simp, readExpr_literal h e5⟩
    · cases e
  | m :: ms, pre, n + 1, ts, r, hp, hm, e => by
    have hmm := hm m (List.mem_cons_self ..)
    have heq : valueToks a pre (m :: ms) ++ ts = modsToks pre ++ (toks c!"Route::" ++ (wd (toCapsCase m) ++ .op ['('] ::
        (valueToks a (pre ++ [m]) ms ++ .op [')'] :: ts))) := by
      have e3 : toks c!")" = [.op [')']] := rfl
      have : ∀ l : List Tok, List.replicate ms.length (.op [')']) ++ (.op [')'] :: l) =
          .op [')'] :: (List.replicate ms.length (.op [')']) ++ l) := by
        intro l
        have := List.replicate_append_replicate (n := ms.length) (m := 1) (a := Tok.op [')'])
        have h2 : List.replicate ms.length (Tok.op [')']) ++ [.op [')']] = List.replicate (ms.length + 1) (.op [')']) := by
          simpa using this
        rw [List.append_cons, h2, List.replicate_succ]
        rfl
      simp [valueToks, nestToks, e3, List.replicate_succ, this]
    rw [heq] at e
    obtain ⟨_, e1⟩ := readExpr_path e
    obtain ⟨h1, _, e2⟩ := readPath_modules e1
    have e3 : readPath (.word c!"Route" :: .op c!"::" :: (wd (toCapsCase m) ++ .op ['('] ::
        (valueToks a (pre ++ [m]) ms ++ .op [')'] :: ts))) = some _ := e2
    obtain ⟨_, _, e4⟩ := readPath_further e3
    have h2 := readPath_caps e4
    rw [readExpr, readPath_route (fun m hm => (hp m hm).name (h1 m hm)) (hmm.2.name h2)] at e
    simp only at e
    split at e
    · rename_i e5
      obtain ⟨h3, h4⟩ := readExpr_names h (ms := ms) (pre := pre ++ [m]) (by
        intro x hx
        rcases List.mem_append.1 hx with hx | hx
        · exact hp x hx
        · rw [List.mem_singleton.1 hx]; exact hmm.1) (fun x hx => hm x (List.mem_cons_of_mem _ hx)) e5
      exact ⟨by simpa using ⟨h2, h3⟩, h4⟩
    · cases e

theorem readVerbArms_names : ∀ {arms : List MethodArm} {n : Nat} {ts : List Tok} {r : List VerbArm × List Tok},
    (∀ a ∈ arms, ArmNamed Word a) → (arms.flatMap verbToks).length + 1 ≤ n →
    readVerbArms n (arms.flatMap verbToks ++ (toks c!"_ => return Ok(Match::NotAllowed), }" ++ ts)) = some r →
    ∀ a ∈ arms, ArmNamed Name a
  | _, 0, _, _, _, hn, _ => by simp at hn
  | [], n + 1, ts, r, _, _, _ => by simp
  | a :: arms, n + 1, ts, r, h, hn, e => by
    have ha := h a (List.mem_cons_self ..)
    have hlen : (verbToks a).length = (valueToks a [] a.modules).length + ((toks c!"=> return Ok(Match::").length + 6) := by
      rw [verbToks_eq]
      have : (toks c!"(").length = 1 := rfl
      have : (toks c!")),").length = 3 := rfl
      simp [*]
      omega
    rw [List.flatMap_cons, List.length_append] at hn
    have hv := valueToks_length a a.modules []
    have hk : ∀ l, readKind (.word (if a.isRedirect then c!"Redirect" else c!"Route") :: l) = some (a.isRedirect, l) := by
      intro l
      cases a.isRedirect <;> rfl
    rw [List.flatMap_cons, verbToks_eq, readVerbArms] at e
    have he : ∀ l, eatText c!"_ => return Ok(Match::NotAllowed), }" (.str true a.method.display :: l) = none := by
      intro l
      rfl
    have hb : ∀ l, readBytes (.str true a.method.display :: l) = some (a.method.display, l) := fun _ => by cases a.method <;> rfl
    simp only [List.cons_append, List.append_assoc, he, hb, eatText_append, hk, Option.bind_eq_bind, Option.bind_some,
      Option.bind_eq_some_iff] at e
    obtain ⟨⟨x, us⟩, e1, e⟩ := e
    obtain ⟨h1, h2, h3, h4, h5⟩ := readExpr_names ha (by simp) ha.1 e1
    have hna : ArmNamed Name a :=
      ⟨fun m hm => ⟨(ha.1 m hm).1.name (h2 m hm), .inl ((ha.1 m hm).2.name (h1 m hm))⟩, .inl (ha.2.1.name h3),
        fun p hp => (ha.2.2.1 p hp).name (h4 p hp), fun x hx => (ha.2.2.2 x hx).name (h5 x hx)⟩
    rw [readExpr_value hna a.modules [] n _ (by simp) hna.1 (by omega)] at e1
    cases e1
    simp only [eatText_append, Option.some.injEq, exists_eq_left'] at e
    obtain ⟨r', e2, _⟩ := e
    have ih := readVerbArms_names (arms := arms) (fun x hx => h x (List.mem_cons_of_mem _ hx)) (by omega) e2
    simpa using ⟨hna, ih⟩

theorem readLine_letParam {n : Nat} {x : Str} {ts : List Tok} {r : Line × List Tok}
    (e : readLine n (toks c!"let" ++ .word x :: (toks c!"= text.parse().map_err(|e| Error::fail(" ++
      .str false x :: (toks c!", e))?;" ++ ts))) = some r) : isName x = true := by
  cases hx : isName x with
  | true => rfl
  | false =>
    exfalso
    cases n with
    | zero => simp [readLine] at e
    | succ n =>
      have n1 : x ≠ c!"start" := by rintro rfl; revert hx; decide
      have n2 : x ≠ c!"text" := by rintro rfl; revert hx; decide
      have h1 : ∀ l, readLetParam (toks c!"let" ++ .word x :: l) = none := by
        intro l
        simp [readLetParam, eatText_append, readName, hx]
      have h2 : ∀ l, readOneOf fixedLines (toks c!"let" ++ .word x :: l) = none := by
        intro l
        have a1 : eatText c!"let start = i;" (toks c!"let" ++ .word x :: l) =
          if Tok.word c!"start" = .word x then eat (toks c!"= i;") l else none := rfl
        have a2 : eatText c!"let text = std::str::from_utf8(&path[start..i]).unwrap();" (toks c!"let" ++ .word x :: l) =
          if Tok.word c!"text" = .word x then eat (toks c!"= std::str::from_utf8(&path[start..i]).unwrap();") l else none := rfl
        have a3 : eatText c!"return Ok(Match::NotFound);" (toks c!"let" ++ .word x :: l) = none := rfl
        have a4 : eatText c!"while i < len && &path[i..i+1] != b\"/\" { i += 1; }" (toks c!"let" ++ .word x :: l) = none := rfl
        rw [if_neg (by simpa using n1.symm)] at a1
        rw [if_neg (by simpa using n2.symm)] at a2
        simp only [fixedLines, readOneOf, a1, a2, a3, a4]
      rw [readLine, h1] at e
      simp only at e
      rw [h2] at e
      cases e

mutual
theorem readLine_names : ∀ (s : Stmt) (n : Nat) (ts : List Tok) {r : Line × List Tok}, StmtNamed Word s → stmtAscii s = true →
    (stmtToks s).length ≤ n → readLine n (stmtToks s ++ ts) = some r → StmtNamed Name s
  | .blank, _, _, _, _, _, _, _ => by simp [StmtNamed]
  | .letStart, _, _, _, _, _, _, _ => by simp [StmtNamed]
  | .retNotFound, _, _, _, _, _, _, _ => by simp [StmtNamed]
  | .whileScan, _, _, _, _, _, _, _ => by simp [StmtNamed]
  | .letText, _, _, _, _, _, _, _ => by simp [StmtNamed]
  | .addI _, _, _, _, _, _, _, _ => by simp [StmtNamed]
  | s, 0, ts, r, _, _, _, e => by simp [readLine] at e
  | .letParam x t, n + 1, ts, r, h, _, _, e => by
    simp only [stmtToks, List.append_assoc, List.cons_append] at e
    have := readLine_letParam e
    simp only [StmtNamed] at h ⊢
    exact h.name this
  | .ifThen c body, n + 1, ts, r, h, ha, hn, e => by
    simp only [stmtAscii] at ha
    simp only [StmtNamed] at h ⊢
    simp only [stmtToks, List.append_assoc, List.length_append] at hn e
    have e1 : (toks c!"if").length = 1 := rfl
    have e2 : (toks c!"}").length = 1 := rfl
    rw [readLine_if, readCond_cond] at e
    simp only at e
    rw [eatText_append] at e
    simp only [Option.map_eq_some_iff] at e
    obtain ⟨r', e, _⟩ := e
    exact readBlock_names body n ts h ha (by omega) e
  | .matchMethod arms, n + 1, ts, r, h, _, hn, e => by
    simp only [StmtNamed] at h ⊢
    simp only [stmtToks, List.append_assoc, List.length_append] at hn e
    have e1 : (toks c!"match method {").length = 3 := rfl
    rw [readLine_method, Option.map_eq_some_iff] at e
    obtain ⟨r', e, _⟩ := e
    exact readVerbArms_names h (by omega) e
  | .matchPath k arms, n + 1, ts, r, h, ha, hn, e => by
    simp only [stmtAscii] at ha
    simp only [StmtNamed] at h ⊢
    simp only [stmtToks, List.append_assoc, List.length_append, List.cons_append, List.length_cons] at hn e
    have e2 : (toks c!"}").length = 1 := rfl
    rw [readLine_path, readNum_natStr] at e
    simp only at e
    rw [eatText_append] at e
    simp only [Option.map_eq_some_iff] at e
    obtain ⟨r', e, _⟩ := e
    exact readArms_names arms n ts h ha (by omega) e
theorem readBlock_names : ∀ (b : List Stmt) (n : Nat) (ts : List Tok) {r : List Line × List Tok}, BlockNamed Word b → blockAscii b = true →
    (blockToks b).length + 1 ≤ n → readBlock n (blockToks b ++ (toks c!"}" ++ ts)) = some r → BlockNamed Name b
  | _, 0, _, _, _, _, hn, _ => by simp at hn
  | [], n + 1, ts, r, _, _, _, _ => by simp [BlockNamed]
  | s :: b, n + 1, ts, r, h, ha, hn, e => by
    simp only [blockAscii, Bool.and_eq_true] at ha
    simp only [BlockNamed] at h ⊢
    simp only [blockToks, List.length_append, List.append_assoc] at hn e
    cases hs : eraseStmt s with
    | nil =>
      have : s = .blank := by
        cases s <;> simp [eraseStmt] at hs
        rfl
      subst this
      have hz : stmtToks .blank = [] := by simp [stmtToks]
      rw [hz] at hn e
      exact ⟨by simp [StmtNamed], readBlock_names b (n + 1) ts h.2 ha.2 (by simpa using hn) e⟩
    | cons l ls =>
      have hls : ls = [] := by
        cases s <;> simp [eraseStmt] at hs <;> simp [hs]
      subst hls
      have hne : eraseStmt s ≠ [] := by simp [hs]
      have hlen := stmtToks_length s hne
      rw [readBlock, stmt_end s _ hne] at e
      simp only at e
      split at e
      · cases e
      · rename_i e1
        have h1 := readLine_names s n _ h.1 ha.1 (by omega) e1
        rw [readLine_stmt s l n _ h1 ha.1 hs (by omega)] at e1
        split at e1
        · cases e1
          obtain ⟨r', e, _⟩ := Option.map_eq_some_iff.1 e
          exact ⟨h1, readBlock_names b n ts h.2 ha.2 (by omega) e⟩
        · cases e1
theorem readArms_names : ∀ (as : List Arm) (n : Nat) (ts : List Tok) {r : List PathArm × List Tok}, ArmsNamed Word as → armsAscii as = true →
    (armsToks as).length + 1 ≤ n → readArms n (armsToks as ++ (toks c!"}" ++ ts)) = some r → ArmsNamed Name as
  | _, 0, _, _, _, _, hn, _ => by simp at hn
  | [], n + 1, ts, r, _, _, _, _ => by simp [ArmsNamed]
  | .wildNotFound :: as, n + 1, ts, r, h, ha, hn, e => by
    simp only [armsAscii, armAscii, Bool.and_eq_true] at ha
    simp only [ArmsNamed] at h ⊢
    simp only [armsToks, armToks, List.length_append, List.append_assoc] at hn e
    have e2 : (toks c!"_ => return Ok(Match::NotFound),").length = 10 := rfl
    have h1 : ∀ l, readArms (n + 1) (toks c!"_ => return Ok(Match::NotFound)," ++ l) =
      (readArms n l).map fun r => (.wildNotFound :: r.1, r.2) := fun _ => rfl
    rw [h1, Option.map_eq_some_iff] at e
    obtain ⟨r', e, _⟩ := e
    exact ⟨by simp [PathArmNamed], readArms_names as n ts h.2 ha.2 (by omega) e⟩
  | .wildNothing :: as, n + 1, ts, r, h, ha, hn, e => by
    simp only [armsAscii, armAscii, Bool.and_eq_true] at ha
    simp only [ArmsNamed] at h ⊢
    simp only [armsToks, armToks, List.length_append, List.append_assoc] at hn e
    have e2 : (toks c!"_ => {},").length = 5 := rfl
    have h1 : ∀ l, readArms (n + 1) (toks c!"_ => {}," ++ l) =
      (readArms n l).map fun r => (.wildNothing :: r.1, r.2) := fun _ => rfl
    rw [h1, Option.map_eq_some_iff] at e
    obtain ⟨r', e, _⟩ := e
    exact ⟨by simp [PathArmNamed], readArms_names as n ts h.2 ha.2 (by omega) e⟩
  | .someSlash :: as, n + 1, ts, r, h, _, hn, e => by
    simp only [armsToks, armToks, List.append_assoc] at e
    have : ∀ l, readArms (n + 1) (toks c!"Some('/') => {}" ++ l) = none := fun _ => rfl
    rw [this] at e
    cases e
  | .stray b :: as, n + 1, ts, r, h, _, hn, e => by
    simp only [ArmsNamed, PathArmNamed] at h
    simp only [armsToks, armToks, List.append_assoc] at e
    rw [readArms_stray (n + 1) b _ h.1.2] at e
    cases e
  | .bytes pat body :: as, n + 1, ts, r, h, ha, hn, e => by
    simp only [armsAscii, armAscii, Bool.and_eq_true] at ha
    simp only [ArmsNamed, PathArmNamed] at h ⊢
    simp only [armsToks, armToks, List.length_append, List.append_assoc, List.cons_append, List.length_cons] at hn e
    have h1 : ∀ l, readArms (n + 1) (.str true pat :: l) =
      match eatText c!"=> {" l with
      | none => none
      | some ts =>
        match readBlock n ts with
        | none => none
        | some (body, ts) =>
          match eatText c!"," ts with
          | none => none
          | some ts => (readArms n ts).map fun r => (.bytes pat body :: r.1, r.2) := by
      intro l
      have h2 : eatText c!"}" (.str true pat :: l) = none := rfl
      have h3 : eatText c!"_ => return Ok(Match::NotFound)," (.str true pat :: l) = none := rfl
      have h4 : eatText c!"_ => {}," (.str true pat :: l) = none := rfl
      rw [readArms]
      simp only [h2, h3, h4, readBytes_plain fun c hc => (h.1.1 c hc).1]
      rfl
    rw [h1, eatText_append] at e
    simp only at e
    split at e
    · cases e
    · rename_i e1
      have hb := readBlock_names body n _ h.1.2 ha.1.2 (by omega) e1
      rw [readBlock_block body n _ hb ha.1.2 (by omega)] at e1
      split at e1
      · cases e1
        rw [eatText_append] at e
        simp only [Option.map_eq_some_iff] at e
        obtain ⟨r', e, _⟩ := e
        exact ⟨⟨h.1.1, hb⟩, readArms_names as n ts h.2 ha.2 (by omega) e⟩
      · cases e1
end

/-! ## Declarations -/

theorem readType_name (f : Field) (ts : List Tok) {r : Bool × Str × List Tok}
    (e : readType ((if f.optional then .word c!"Option" :: .op ['<'] :: .word f.typ :: [.op ['>'], .op [',']] else [.word f.typ, .op [',']]) ++ ts) =
      some r) : isName f.typ = true := by
  cases ho : f.optional with
  | true =>
    rw [ho] at e
    by_contra h
    simp [readType, h] at e
  | false =>
    rw [ho] at e
    by_contra h
    simp [readType, h] at e

theorem readDeclFields_names : ∀ (fs : List Field) (n : Nat) (ts : List Tok) {r : List Field × List Tok},
    (∀ f ∈ fs, Word f.name ∧ Word f.typ) → readDeclFields n (fs.flatMap fieldToks ++ (toks c!"}" ++ ts)) = some r →
    ∀ f ∈ fs, Name f.name ∧ Name f.typ
  | [], _, _, _, _, _ => by simp
  | f :: fs, 0, _, _, _, e => by simp [readDeclFields] at e
  | f :: fs, n + 1, ts, r, h, e => by
    have hf := h f (List.mem_cons_self ..)
    have he : ∀ l, eatText c!"}" (toks c!"pub" ++ l) = none := fun _ => rfl
    simp only [List.flatMap_cons, fieldToks, List.append_assoc, List.cons_append] at e
    rw [readDeclFields, he] at e
    simp only [eatText_append, Option.bind_eq_bind, Option.bind_some, Option.bind_eq_some_iff] at e
    obtain ⟨⟨x, us⟩, e1, e⟩ := e
    have h1 := hf.1.name (readName_word e1)
    rw [readName_name h1] at e1
    cases e1
    simp only [eatText_append, Option.some.injEq, exists_eq_left'] at e
    obtain ⟨⟨o, t, vs⟩, e2, e⟩ := e
    have h2 := hf.2.name (readType_name f _ e2)
    rw [readType_field f h2] at e2
    cases e2
    obtain ⟨r', e3, _⟩ := e
    have ih := readDeclFields_names fs n ts (fun x hx => h x (List.mem_cons_of_mem _ hx)) e3
    simpa using ⟨⟨h1, h2⟩, ih⟩

theorem readStruct_names {s : Struct} (hn : CapsIn Word s.name) (hf : ∀ f ∈ s.fields, Word f.name ∧ Word f.typ) (n : Nat)
    (ts : List Tok) {r : Struct × List Tok} (e : readStruct n (structToks s ++ ts) = some r) :
    Name s.name ∧ ∀ f ∈ s.fields, Name f.name ∧ Name f.typ := by
  unfold structToks readStruct at e
  simp only [List.append_assoc, List.cons_append, Option.bind_eq_bind, Option.bind_eq_some_iff] at e
  obtain ⟨⟨x, us⟩, e1, e⟩ := e
  have h1 := hn.name (readName_caps e1 (by by_cases h0 : s.fields = [] <;> simp only [h0, if_true, if_false] <;> rfl))
  rw [readName_wd h1] at e1
  cases e1
  obtain ⟨⟨fs, us⟩, e2, _⟩ := e
  refine ⟨h1, ?_⟩
  by_cases h0 : s.fields = []
  · rw [h0]; simp
  · rw [if_neg h0] at e2
    have he : ∀ l, readStructBody n (toks c!"{" ++ l) = readDeclFields n l := fun _ => rfl
    simp only [List.append_assoc] at e2
    rw [he] at e2
    exact readDeclFields_names _ n _ hf e2

theorem actionNamed_of_struct {a : FlattenedAction} (h : ActionNamed Word a)
    (hs : Name (structOf a).name ∧ ∀ f ∈ (structOf a).fields, Name f.name ∧ Name f.typ) : ActionNamed Name a :=
  ⟨.inl hs.1, h.2.1, fun p hp => hs.2 ⟨p.name, false, p.typ⟩ (List.mem_append_left _ (List.mem_map.2 ⟨p, hp, rfl⟩)),
    fun p hp => hs.2 ⟨p.name, true, p.typ⟩ (List.mem_append_right _ (List.mem_map.2 ⟨p, hp, rfl⟩))⟩

theorem readStructs_names : ∀ (as : List FlattenedAction) (n : Nat) (ts : List Tok) {r : List Struct × List Tok},
    (∀ a ∈ as, ActionNamed Word a) →
    (as.flatMap fun a => toks structHead ++ structToks (structOf a)).length + 1 ≤ n →
    readStructs n ((as.flatMap fun a => toks structHead ++ structToks (structOf a)) ++ ts) = some r →
    ∀ a ∈ as, ActionNamed Name a
  | _, 0, _, _, _, hn, _ => by omega
  | [], _, _, _, _, _, _ => by simp
  | a :: as, n + 1, ts, r, h, hn, e => by
    have ha := h a (List.mem_cons_self ..)
    simp only [List.flatMap_cons, List.length_append, List.append_assoc] at hn e
    have e1 : (toks structHead).length = 13 := rfl
    rw [readStructs, eatText_append] at e
    simp only [Option.bind_eq_bind, Option.bind_eq_some_iff] at e
    obtain ⟨⟨x, us⟩, e2, e⟩ := e
    have h1 := actionNamed_of_struct ha (readStruct_names ha.1 (by
      intro f hf
      rcases List.mem_append.1 hf with hf | hf <;> obtain ⟨p, hpm, rfl⟩ := List.mem_map.1 hf
      · exact ha.2.2.1 p hpm
      · exact ha.2.2.2 p hpm) n _ e2)
    rw [readStruct_struct (structOf_named h1) n _ (by omega)] at e2
    cases e2
    obtain ⟨r', e3, _⟩ := e
    have ih := readStructs_names as n ts (fun x hx => h x (List.mem_cons_of_mem _ hx)) (by omega) e3
    simpa using ⟨h1, ih⟩

theorem readVariants_names : ∀ (vs : List (Str × List Str)) (n : Nat) (ts : List Tok) {r : List (Str × List Str) × List Tok},
    (∀ v ∈ vs, CapsIn Word v.1 ∧ v.2 ≠ [] ∧ ∀ x ∈ v.2, Name x) →
    readVariants n ((vs.flatMap fun v => wd v.1 ++ toks c!"(" ++
      ((v.2.map fun x => wd x).intersperse [.op c!"::"]).flatten ++ toks c!"),") ++ (toks c!"}" ++ ts)) = some r →
    ∀ v ∈ vs, Name v.1
  | [], _, _, _, _, _ => by simp
  | v :: vs, 0, _, _, _, e => by simp [readVariants] at e
  | v :: vs, n + 1, ts, r, h, e => by
    have hv := h v (List.mem_cons_self ..)
    have he : ∀ l, eatText c!"}" (wd v.1 ++ (toks c!"(" ++ l)) = none := by
      intro l
      unfold wd
      split <;> rfl
    have hp : ∀ l, readPath (pathToks v.2 ++ (toks c!")," ++ l)) = some (v.2, toks c!")," ++ l) := fun l =>
      readPath_toks v.2 (.op [')']) (.op [','] :: l) hv.2.1 hv.2.2 (by decide)
    have ih := fun r => readVariants_names vs n ts (r := r) fun x hx => h x (List.mem_cons_of_mem _ hx)
    simp only [pathToks_eq] at e ih
    simp only [List.flatMap_cons, List.append_assoc, List.cons_append] at e ih
    rw [readVariants, he] at e
    simp only [Option.bind_eq_bind, Option.bind_eq_some_iff] at e
    obtain ⟨⟨x, us⟩, e1, e⟩ := e
    have h1 := hv.1.name (readName_caps e1 rfl)
    rw [readName_wd h1] at e1
    cases e1
    simp only [eatText_append, hp, Option.some.injEq, exists_eq_left'] at e
    obtain ⟨r', e2, _⟩ := e
    intro w hw
    rcases List.mem_cons.1 hw with rfl | hw
    · exact h1
    · exact ih r' e2 w hw

theorem readMods_each (hs : List Tok) : ∀ (ms : List FlattenedModule) (n : Nat) (ts : List Tok),
    (∀ m ∈ ms, Name (toSnakeCase m.name) ∧ ModNamed Name m) → eatText c!"pub mod" ts = none →
    (subToks hs ms).length + 1 ≤ n → readMods hs n (subToks hs ms ++ ts) = some (modsOf ms, ts)
  | _, 0, _, _, _, hn => by omega
  | [], n + 1, ts, _, ht, _ => by simp [subToks, readMods, ht, modsOf]
  | m :: ms, n + 1, ts, h, ht, hn => by
    have hm := h m (List.mem_cons_self ..)
    simp only [subToks, List.length_append, List.length_cons] at hn
    have h1 := readMod_mod hs m n (toks c!"}" ++ (subToks hs ms ++ ts)) hm.2 (by omega)
    have h2 := readMods_each hs ms n ts (fun x hx => h x (List.mem_cons_of_mem _ hx)) ht (by omega)
    simp only [subToks, List.append_assoc, List.cons_append] at h1 h2 ⊢
    rw [readMods, eatText_append]
    simp only
    rw [readName_name hm.1]
    simp only
    rw [eatText_append]
    simp only
    rw [h1]
    simp only
    rw [eatText_append]
    simp only
    rw [h2]
    simp [modsOf]

theorem enum_not_mod (vs : List (Str × List Str)) (xs : List Str) (ts : List Tok) :
    eatText c!"pub mod" (enumToks vs xs ++ ts) = none := by
  unfold enumToks
  simp only [List.append_assoc]
  rfl

theorem modsNamed_of_each {N : Str → Prop} : ∀ {ms : List FlattenedModule},
    (∀ m ∈ ms, N (toSnakeCase m.name) ∧ CapsIn N (toCapsCase m.name) ∧ ModNamed N m) → ModsNamed N ms
  | [], _ => by simp [ModsNamed]
  | m :: ms, h => by
    have hm := h m (List.mem_cons_self ..)
    simp only [ModsNamed]
    exact ⟨hm.1, hm.2.1, hm.2.2, modsNamed_of_each fun x hx => h x (List.mem_cons_of_mem _ hx)⟩

theorem readEnum_names {vs : List (Str × List Str)} {xs : List Str} (hv : ∀ v ∈ vs, CapsIn Word v.1 ∧ v.2 ≠ [] ∧ ∀ x ∈ v.2, Name x)
    (n : Nat) (ts : List Tok) {r : List (Str × List Str) × List Str × List Tok} (e : readEnum n (enumToks vs xs ++ ts) = some r) :
    ∀ v ∈ vs, Name v.1 := by
  unfold readEnum enumToks at e
  simp only [List.append_assoc, eatText_append, Option.bind_eq_bind, Option.bind_some, Option.bind_eq_some_iff] at e
  obtain ⟨r', e, _⟩ := e
  exact readVariants_names vs n _ hv (by simpa only [List.append_assoc] using e)

mutual
theorem readMod_names (hs : List Tok) : ∀ (m : FlattenedModule) (n : Nat) (ts : List Tok) {r : Mod × List Tok},
    ModNamed Word m → (modToks hs m).length ≤ n → readMod hs n (modToks hs m ++ ts) = some r → ModNamed Name m
  | .mk _ _ _, 0, ts, r, _, _, e => by simp [readMod] at e
  | .mk name actions modules, n + 1, ts, r, h, hn, e => by
    simp only [ModNamed] at h ⊢
    simp only [modToks, List.length_append] at hn
    have e1 : 14 ≤ (enumToks (variantsOf actions modules) (handledOf actions modules)).length := by
      have : (toks enumHead).length = 15 := rfl
      simp only [enumToks, List.length_append]
      omega
    simp only [modToks, List.append_assoc] at e
    rw [readMod, eat_append] at e
    simp only at e
    split at e
    · cases e
    rename_i e2
    have h1 := readStructs_names actions n _ h.1 (by omega) (by simpa only [List.append_assoc] using e2)
    have eqs : (actions.flatMap fun a => toks structHead ++ structToks (structOf a)) =
        ((actions.map structOf).flatMap fun s => toks structHead ++ structToks s) := by
      rw [List.flatMap_map]
    have f2 := readStructs_structs (actions.map structOf) n (subToks hs modules ++
        (enumToks (variantsOf actions modules) (handledOf actions modules) ++ ts)) (by
        intro s hs
        obtain ⟨a, ha, rfl⟩ := List.mem_map.1 hs
        exact structOf_named (h1 a ha)) (subs_not_struct ..) (by rw [← eqs]; omega)
    rw [← eqs] at f2
    rw [f2] at e2
    cases e2
    split at e
    · cases e
    rename_i e3
    have h2 := readMods_names hs modules n _ h.2 (by omega) e3
    rw [readMods_each hs modules n _ h2 (enum_not_mod ..) (by omega)] at e3
    cases e3
    obtain ⟨r', e, _⟩ := Option.map_eq_some_iff.1 e
    have h3 := readEnum_names (by
      intro v hv
      rcases List.mem_append.1 hv with hv | hv
      · obtain ⟨a, ha, rfl⟩ := List.mem_map.1 hv
        exact ⟨(h.1 a ha).1, by simp, by simpa using capsIn_name.1 (h1 a ha).1⟩
      · obtain ⟨m, hm, rfl⟩ := List.mem_map.1 hv
        refine ⟨(h.2.mem m hm).2.1, by simp, ?_⟩
        intro x hx
        rcases List.mem_cons.1 hx with rfl | hx
        · exact (h2 m hm).1
        · rw [List.mem_singleton.1 hx]; exact name_route) n ts e
    refine ⟨h1, modsNamed_of_each fun m hm => ⟨(h2 m hm).1, ?_, (h2 m hm).2⟩⟩
    exact .inl <| h3 (toCapsCase m.name, [toSnakeCase m.name, c!"Route"]) (List.mem_append_right _ (List.mem_map.2 ⟨m, hm, rfl⟩))
theorem readMods_names (hs : List Tok) : ∀ (ms : List FlattenedModule) (n : Nat) (ts : List Tok) {r : List (Str × Mod) × List Tok},
    ModsNamed Word ms → (subToks hs ms).length + 1 ≤ n → readMods hs n (subToks hs ms ++ ts) = some r →
    ∀ m ∈ ms, Name (toSnakeCase m.name) ∧ ModNamed Name m
  | _, 0, _, _, _, hn, _ => by omega
  | [], _, _, _, _, _, _ => by simp
  | m :: ms, n + 1, ts, r, h, hn, e => by
    simp only [ModsNamed] at h
    simp only [subToks, List.length_append, List.length_cons] at hn
    simp only [subToks, List.append_assoc, List.cons_append] at e
    rw [readMods, eatText_append] at e
    simp only at e
    split at e
    · cases e
    rename_i e1
    have h1 := h.1.name (readName_word e1)
    rw [readName_name h1] at e1
    cases e1
    rw [eatText_append] at e
    simp only at e
    split at e
    · cases e
    rename_i e2
    have h2 := readMod_names hs m n _ h.2.2.1 (by omega) e2
    rw [readMod_mod hs m n _ h2 (by omega)] at e2
    cases e2
    rw [eatText_append] at e
    simp only at e
    obtain ⟨r', e, _⟩ := Option.map_eq_some_iff.1 e
    have h3 := readMods_names hs ms n ts h.2.2.2 (by omega) e
    simpa using ⟨⟨h1, h2⟩, h3⟩
end

/-- A file is read exactly if its names are names and all its arms are arms of Rust. -/
theorem fileToks_iff (hs : List Tok) {root : FlattenedModule} {body : List Stmt} (hm : ModNamed Word root)
    (hb : BlockNamed Word body) (ha : blockAscii body = true) :
    (∃ f, readFile hs (fileToks hs root body) = some f) ↔ ModNamed Name root ∧ BlockNamed Name body ∧ blockShapeOk body = true := by
  constructor
  · rintro ⟨f, e⟩
    have e0 := e
    have hn1 : (modToks hs root).length ≤ (fileToks hs root body).length + 1 := by
      simp only [fileToks, List.length_append]; omega
    have hn2 : (blockToks body).length + 1 ≤ (fileToks hs root body).length + 1 := by
      simp only [fileToks, List.length_append]; omega
    unfold readFile at e
    generalize (fileToks hs root body).length + 1 = n at hn1 hn2 e
    unfold fileToks at e
    simp only [eatText_append, Option.bind_eq_bind, Option.bind_some, Option.bind_eq_some_iff] at e
    obtain ⟨⟨m, us⟩, e1, e⟩ := e
    have h1 := readMod_names hs root n _ hm hn1 e1
    rw [readMod_mod hs root n _ h1 hn1] at e1
    cases e1
    simp only [eatText_append, Option.some.injEq, exists_eq_left'] at e
    obtain ⟨⟨b, us⟩, e2, _⟩ := e
    have h2 := readBlock_names body n _ hb ha hn2 e2
    refine ⟨h1, h2, ?_⟩
    rw [fileToks_read hs h1 h2 ha] at e0
    by_contra h
    rw [if_neg h] at e0
    cases e0
  · rintro ⟨h1, h2, h3⟩
    exact ⟨_, by rw [fileToks_read hs h1 h2 ha, if_pos h3]⟩

/-- Without any assumption about the words but that they are words: the emitted text is read exactly if the names written
are names and all its arms are arms of Rust. -/
theorem codegen_read_iff {c : RouteConfig} (h : (codegen c).fail = none) (hh : HeadersRead c.headers)
    (hw : WordsIn Word c.routes) {root : FlattenedModule} {body : List Stmt} (hr : modulesRoot c.routes = some root)
    (hb : matcherBody c.routes = .ok body) :
    (∃ f, (lex (codegen c).text).bind (readFile (headerToks c.headers)) = some f) ↔
      ModNamed Name root ∧ BlockNamed Name body ∧ blockShapeOk body = true := by
  rw [codegen_lex h hh hw hr hb]
  split
  · rename_i ha
    rw [Option.bind_some]
    exact fileToks_iff _ (hw.modules hr) (hw.body hb) ha
  · rename_i ha
    exact ⟨fun ⟨_, e⟩ => (nomatch e), fun ⟨_, _, h3⟩ => absurd h3 (shape_of_ascii ha)⟩

end Wayfinder.Rust
