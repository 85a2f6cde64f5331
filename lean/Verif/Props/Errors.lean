import Verif.Proofs.Errors
import Verif.Props.Lines
/-!
# C31, C32: reports of parse errors
-/

namespace Wayfinder

variable (cfg : ParseCfg)

/-! ## C31 -/

theorem showList_eq (buf pre : Str) : ∀ v : List (Str × Kind), (∀ x ∈ v, x.1 <:+ buf) →
    ∃ ps : List (Place × Kind), ps.map (fun p => (p.1.rest, p.2)) = v ∧
      (∀ p ∈ ps, p.1.Sound ∧ p.1.text = buf) ∧
      showList buf pre v = some (ps.map fun p => p.1.report (getMessage p.2) pre).flatten
  | [], _ => ⟨[], rfl, by simp, rfl⟩
  | (i, k) :: v, h => by
    obtain ⟨ps, h1, h2, h3⟩ := showList_eq buf pre v fun x hx => h x (by simp [hx])
    obtain ⟨a, ha⟩ := h (i, k) (List.mem_cons_self ..)
    obtain ⟨p, hp, hpa, hpi⟩ := place_exists a i
    have hbuf : p.text = buf := by rw [← ha, ← hpa, ← hpi]; simp [Place.text, Place.rest]
    have hpos : utf8Len buf - utf8Len i = utf8Len (p.above ++ p.left) := by
      rw [hpa, ← ha, utf8Len_append]; simp
    refine ⟨(p, k) :: ps, by simp [h1, hpi], ?_, ?_⟩
    · intro q hq
      rcases List.mem_cons.1 hq with rfl | hq
      · exact ⟨hp, hbuf⟩
      · exact h2 q hq
    · have hle : utf8Len i ≤ utf8Len buf := by
        rw [← ha]
        simp only [utf8Len_append]
        omega
      have hshow := showError_eq hp (getMessage k) pre
      rw [hbuf] at hshow
      unfold showList
      rw [if_pos hle, hpos, h3]
      simp [hshow]

/-- **C31, one position.** For every place in every text: the line number shown is one plus the number
of newlines before it, the line shown is the line that contains it, and the caret follows as many blanks
as there are characters between the start of the line and the place. -/
theorem C31_place {p : Place} (hp : p.Sound) (msg pre : Str) :
    showError p.text (utf8Len (p.above ++ p.left)) msg pre = some (p.report msg pre) :=
  showError_eq hp msg pre

/-- **C31, failures.** When a file is rejected with a list of positions, a report is written for each of
them, the last recorded first, and every one is the report on its place in the file. -/
theorem C31_report (dbg : Ctx → Str) (buf pre : Str) {v : List (Str × Kind)}
    (h : routeConfig cfg buf = .failure (.list v)) :
    ∃ ps : List (Place × Kind), ps.map (fun p => (p.1.rest, p.2)) = v.reverse ∧
      (∀ p ∈ ps, p.1.Sound ∧ p.1.text = buf) ∧
      showErrors dbg buf (routeConfig cfg buf) pre =
        some (ps.map fun p => p.1.report (getMessage p.2) pre).flatten := by
  have hv := (C30_positions cfg buf (.list v) (.inr h)).2 v rfl
  rw [h]
  exact showList_eq buf pre v.reverse fun x hx => hv x (by simpa using hx)

/-- The place at the beginning of a text. -/
theorem place_start (buf : Str) : ∃ p : Place, p.Sound ∧ p.text = buf ∧ p.above = [] ∧ p.left = [] := by
  obtain ⟨p, hp, h1, h2⟩ := place_exists [] buf
  refine ⟨p, hp, ?_, (List.append_eq_nil_iff.1 h1).1, (List.append_eq_nil_iff.1 h1).2⟩
  rw [← h2, Place.text, h1]; simp [Place.rest]

/-- What is reported on any result of any parser: for each report, the text from its place on, and the message. -/
def Res.reports {α : Type} (dbg : Ctx → Str) (buf : Str) : Res α → List (Str × Str)
  | .ok _ _ => []
  | .error (.code _ k) => [(buf, c!"error " ++ k.debug)]
  | .failure (.code j k) => [(buf, c!"failure " ++ dbg (.code j k))]
  | .error (.list v) => v.reverse.map fun x => (x.1, getMessage x.2)
  | .failure (.list v) => v.reverse.map fun x => (x.1, getMessage x.2)

/-- **C31, any result.** `show_errors` is public and may be called with the result of any parser.  If the positions listed in it
are positions in the text, then one report is written for each, and otherwise one for the beginning. -/
theorem C31_any {α : Type} (dbg : Ctx → Str) (buf pre : Str) (r : Res α)
    (h : ∀ v, r = .error (.list v) ∨ r = .failure (.list v) → ∀ x ∈ v, x.1 <:+ buf) :
    ∃ ps : List (Place × Str), ps.map (fun p => (p.1.rest, p.2)) = r.reports dbg buf ∧
      (∀ p ∈ ps, p.1.Sound ∧ p.1.text = buf) ∧
      showErrors dbg buf r pre = some (ps.map fun p => p.1.report p.2 pre).flatten := by
  have one : ∀ msg : Str, ∃ ps : List (Place × Str), ps.map (fun p => (p.1.rest, p.2)) = [(buf, msg)] ∧
      (∀ p ∈ ps, p.1.Sound ∧ p.1.text = buf) ∧
      showError buf 0 msg pre = some (ps.map fun p => p.1.report p.2 pre).flatten := by
    intro msg
    obtain ⟨p, hp, rfl, h1, h2⟩ := place_start buf
    have := showError_eq hp msg pre
    rw [h1, h2] at this
    refine ⟨[(p, msg)], by simp [Place.rest, Place.text, h1, h2], ?_, ?_⟩
    · intro q hq
      rw [List.mem_singleton.1 hq]
      exact ⟨hp, rfl⟩
    · rw [show (0 : Nat) = utf8Len ([] ++ []) from rfl, this]; simp
  have many : ∀ v : List (Str × Kind), (∀ x ∈ v, x.1 <:+ buf) → ∃ ps : List (Place × Str),
      ps.map (fun p => (p.1.rest, p.2)) = v.reverse.map (fun x => (x.1, getMessage x.2)) ∧
      (∀ p ∈ ps, p.1.Sound ∧ p.1.text = buf) ∧
      showList buf pre v.reverse = some (ps.map fun p => p.1.report p.2 pre).flatten := by
    intro v hv
    obtain ⟨ps, h1, h2, h3⟩ := showList_eq buf pre v.reverse fun x hx => hv x (by simpa using hx)
    refine ⟨ps.map fun p => (p.1, getMessage p.2), ?_, ?_, ?_⟩
    · rw [← h1]; simp [Function.comp_def]
    · intro q hq
      obtain ⟨p, hp, rfl⟩ := List.mem_map.1 hq
      exact h2 p hp
    · rw [h3]; simp [Function.comp_def]
  cases r with
  | ok r c => exact ⟨[], rfl, by simp, rfl⟩
  | error c =>
    cases c with
    | code j k => exact one _
    | list v => exact many v (h v (.inl rfl))
  | failure c =>
    cases c with
    | code j k => exact one _
    | list v => exact many v (h v (.inr rfl))

/-- A failure that comes without a list, as `cut!` of another parser may give it. -/
example : showErrors (fun _ => c!"Code") c!"a\nb" (.failure (.code c!"b" .char) : Res Unit) c!"> " =
    some c!">    1:a\n>      ^ failure Code\n" := by decide +kernel

/-- **C31, no panic.** `show_errors` writes its report for every text. -/
theorem C31_no_panic (dbg : Ctx → Str) (buf pre : Str) :
    ∃ out, showErrors dbg buf (routeConfig cfg buf) pre = some out := by
  cases h : routeConfig cfg buf with
  | ok r c => exact ⟨[], rfl⟩
  | error c =>
    obtain ⟨j, k, rfl, _⟩ := (routeConfig_shape cfg buf).1 c h
    obtain ⟨p, hp, rfl, h1, h2⟩ := place_start buf
    have := showError_eq hp (c!"error " ++ k.debug) pre
    rw [h1, h2] at this
    exact ⟨_, this⟩
  | failure c =>
    obtain ⟨v, rfl, _⟩ := (routeConfig_shape cfg buf).2 c h
    obtain ⟨ps, _, _, h3⟩ := C31_report cfg dbg buf pre h
    rw [h] at h3
    exact ⟨_, h3⟩

/-- **C31, what is reported.** A rejected file is reported on: at least one entry is written. -/
theorem C31_nonempty (dbg : Ctx → Str) (buf pre : Str) (h : ∀ rest c, routeConfig cfg buf ≠ .ok rest c) :
    ∃ p : Place, ∃ msg out, p.Sound ∧ p.text = buf ∧
      showErrors dbg buf (routeConfig cfg buf) pre = some (p.report msg pre ++ out) := by
  cases he : routeConfig cfg buf with
  | ok r c => exact absurd he (h r c)
  | error c =>
    obtain ⟨j, k, rfl, _⟩ := (routeConfig_shape cfg buf).1 c he
    obtain ⟨p, hp, rfl, h1, h2⟩ := place_start buf
    have := showError_eq hp (c!"error " ++ k.debug) pre
    rw [h1, h2] at this
    exact ⟨p, _, [], hp, rfl, by rw [List.append_nil]; exact this⟩
  | failure c =>
    obtain ⟨v, rfl, hv⟩ := (routeConfig_shape cfg buf).2 c he
    obtain ⟨ps, h1, h2, h3⟩ := C31_report cfg dbg buf pre he
    cases ps with
    | nil => simp at h1; exact absurd h1 hv
    | cons p ps =>
      refine ⟨p.1, getMessage p.2, (ps.map fun p => p.1.report (getMessage p.2) pre).flatten, ?_, ?_, ?_⟩
      · exact (h2 p (List.mem_cons_self ..)).1
      · exact (h2 p (List.mem_cons_self ..)).2
      · rw [← he, h3]; simp

/-- **C31, errors.** An error outside the route table is always reported at the very beginning of the
file, wherever it happened. -/
theorem C31_error_partial (dbg : Ctx → Str) (buf pre : Str) {c : Ctx} (h : routeConfig cfg buf = .error c) :
    ∃ j k, c = .code j k ∧ ∃ p : Place, p.Sound ∧ p.text = buf ∧ p.rest = buf ∧ p.line = 1 ∧
      showErrors dbg buf (routeConfig cfg buf) pre = some (p.report (c!"error " ++ k.debug) pre) := by
  obtain ⟨j, k, rfl, _⟩ := (routeConfig_shape cfg buf).1 c h
  obtain ⟨p, hp, rfl, h1, h2⟩ := place_start buf
  have := showError_eq hp (c!"error " ++ k.debug) pre
  rw [h1, h2] at this
  refine ⟨j, k, rfl, p, hp, rfl, by simp [Place.rest, Place.text, h1, h2], by simp [Place.line, h1], ?_⟩
  rw [h]; exact this

/-- **C31 fails for errors.** The position of an error is thrown away: here the line `GET Foo` follows
the header, the parser stops at it, on line 3, and line 1 is shown. -/
theorem C31_position_false : ∃ (buf j : Str) (k : Kind) (p q : Place), 
    routeConfig cfg buf = .error (.code j k) ∧ p.Sound ∧ p.text = buf ∧ p.rest = j ∧ p.line = 3 ∧
    q.Sound ∧ q.text = buf ∧ q.line = 1 ∧
    ∀ dbg pre, showErrors dbg buf (routeConfig cfg buf) pre = some (q.report c!"error Char" pre) := by
  have hr : ∀ cfg : ParseCfg, routeConfig cfg c!"use a;\n\nGET Foo" = .error (.code c!"GET Foo" .char) := by
    intro cfg; rfl
  have hq : (⟨[], [], c!"use a;", c!"\n\nGET Foo"⟩ : Place).Sound :=
    ⟨.inl rfl, by decide, by decide, .inr ⟨c!"\nGET Foo", rfl⟩⟩
  refine ⟨c!"use a;\n\nGET Foo", c!"GET Foo", .char, ⟨c!"use a;\n\n", [], c!"GET Foo", []⟩,
    ⟨[], [], c!"use a;", c!"\n\nGET Foo"⟩, hr cfg, ⟨.inr ⟨c!"use a;\n", rfl⟩, by decide, by decide, .inl rfl⟩,
    rfl, rfl, by decide, hq, rfl, by decide, fun dbg pre => ?_⟩
  rw [hr cfg]
  exact showError_eq hq _ pre

/-- Two lists with the same separator, which is not in their first parts, are the same in both parts. -/
theorem split_at {c : Char} : ∀ {a b x y : Str}, c ∉ a → c ∉ b → a ++ c :: x = b ++ c :: y → a = b ∧ x = y
  | [], [], _, _, _, _, h => ⟨rfl, by simpa using h⟩
  | [], d :: b, _, _, _, hb, h => absurd (List.mem_cons.2 (.inl (List.cons.inj h).1)) hb
  | d :: a, [], _, _, ha, _, h => absurd (List.mem_cons.2 (.inl (List.cons.inj h).1.symm)) ha
  | d :: a, e :: b, _, _, ha, hb, h => by
    have h1 := (List.cons.inj h).1
    have h2 := split_at (fun m => ha (List.mem_cons_of_mem _ m)) (fun m => hb (List.mem_cons_of_mem _ m)) (List.cons.inj h).2
    exact ⟨by rw [h1, h2.1], h2.2⟩

theorem lineLabel_chars {n : Nat} {c : Char} (h : c ∈ lineLabel n) : c = ' ' ∨ c.isDigit = true := by
  rw [lineLabel_eq] at h
  rcases List.mem_append.1 h with h | h
  · exact .inl (List.eq_of_mem_replicate h)
  · exact .inr (Nat.isDigit_of_mem_toDigits (by decide) (by decide) h)

theorem lineLabel_inj {m n : Nat} (h : lineLabel m = lineLabel n) : m = n := by
  have key : ∀ n, (lineLabel n).dropWhile (fun c => c == ' ') = Nat.toDigits 10 n := by
    intro n
    rw [lineLabel_eq, padLeft, List.dropWhile_append, dropWhile_all (by
      intro c hc; simp [List.eq_of_mem_replicate hc])]
    simp only [List.isEmpty_nil, if_true]
    change (Nat.toDigits 10 n).dropWhile _ = _
    cases hd : Nat.toDigits 10 n with
    | nil => rfl
    | cons c l =>
      have := Nat.isDigit_of_mem_toDigits (b := 10) (n := n) (c := c) (by decide) (by decide) (by rw [hd]; simp)
      rw [List.dropWhile_cons, if_neg]
      intro hc
      rw [beq_iff_eq] at hc
      subst hc
      exact absurd this (by decide)
  have h' : Nat.toDigits 10 m = Nat.toDigits 10 n := by rw [← key m, ← key n, h]
  rw [← Nat.ofDigitChars_ten_toDigits (n := m), ← Nat.ofDigitChars_ten_toDigits (n := n), h']

/-- A text has only one beginning with a given number of lines. -/
theorem above_unique : ∀ {a b x y : Str}, (a = [] ∨ ∃ s, a = s ++ c!"\n") → (b = [] ∨ ∃ s, b = s ++ c!"\n") →
    a.count '\n' = b.count '\n' → a ++ x = b ++ y → a = b := by
  have key : ∀ {a t : Str}, a.count '\n' = (a ++ t).count '\n' → (a ++ t = [] ∨ ∃ s, a ++ t = s ++ c!"\n") → t = [] := by
    intro a t hc he
    have ht : '\n' ∉ t := by
      rw [List.count_append] at hc
      exact List.count_eq_zero.1 (by omega)
    rcases he with he | ⟨s, he⟩
    · exact (List.append_eq_nil_iff.1 he).2
    · rcases List.eq_nil_or_concat t with rfl | ⟨t', c, rfl⟩
      · rfl
      · rw [List.concat_eq_append, ← List.append_assoc] at he
        have := (List.append_inj' he rfl).2
        cases this
        simp at ht
  intro a b x y ha hb hc h
  rcases List.append_eq_append_iff.1 h with ⟨t, rfl, rfl⟩ | ⟨t, rfl, rfl⟩
  · rw [key hc hb]; simp
  · rw [key hc.symm ha]; simp

/-- **C31, one report, one place.** Reports on different places of a text are different, whatever the messages. -/
theorem C31_injective {p q : Place} (hp : p.Sound) (hq : q.Sound) (ht : p.text = q.text) {msg msg' pre : Str}
    (h : p.report msg pre = q.report msg' pre) : p = q ∧ msg = msg' := by
  have hcolon : ∀ n, ':' ∉ lineLabel n := fun n hn => by
    rcases lineLabel_chars hn with h | h <;> exact absurd h (by decide)
  simp only [Place.report, List.append_assoc] at h
  have h := List.append_cancel_left h
  obtain ⟨h1, h⟩ := split_at (hcolon _) (hcolon _) h
  have hab : p.above = q.above := by
    have := lineLabel_inj h1
    simp only [Place.line, Nat.add_right_cancel_iff] at this
    simp only [Place.text, List.append_assoc] at ht
    exact above_unique hp.above hq.above this ht
  have nl : ∀ {p : Place}, p.Sound → '\n' ∉ p.left ++ p.right := fun hs hn => by
    rcases List.mem_append.1 hn with hn | hn
    · exact hs.left hn
    · exact hs.right hn
  have h : (p.left ++ p.right) ++ '\n' :: (pre ++ (c!"     " ++ (List.replicate p.left.length ' ' ++ '^' :: ' ' :: (msg ++ c!"\n")))) =
      (q.left ++ q.right) ++ '\n' :: (pre ++ (c!"     " ++ (List.replicate q.left.length ' ' ++ '^' :: ' ' :: (msg' ++ c!"\n")))) := by
    rw [List.append_assoc, List.append_assoc]; exact h
  obtain ⟨h2, h⟩ := split_at (nl hp) (nl hq) h
  have h := List.append_cancel_left (List.append_cancel_left h)
  have blanks : ∀ n, '^' ∉ List.replicate n ' ' := fun n hn => absurd (List.eq_of_mem_replicate hn) (by decide)
  obtain ⟨h3, h⟩ := split_at (blanks _) (blanks _) h
  have hlen : p.left.length = q.left.length := by simpa using congrArg List.length h3
  obtain ⟨hl, hr⟩ := List.append_inj h2 hlen
  refine ⟨?_, List.append_cancel_right (List.cons.inj h).2⟩
  obtain ⟨a, b, c, d⟩ := p
  obtain ⟨a', b', c', d'⟩ := q
  simp only at hab hl hr
  subst hab hl hr
  simpa [Place.text] using ht

/-- **C31, exact.** The report on a file that is rejected with an error, rather than a list of positions, is the report on the
place of the error exactly if that is the beginning of the file. -/
theorem C31_exact (dbg : Ctx → Str) (buf pre : Str) {j : Str} {k : Kind} (h : routeConfig cfg buf = .error (.code j k))
    {p : Place} (hp : p.Sound) (ht : p.text = buf) (hj : p.rest = j) :
    (∃ msg, showErrors dbg buf (routeConfig cfg buf) pre = some (p.report msg pre)) ↔ j = buf := by
  obtain ⟨j', k', he, q, hq, hqt, hqr, -, hs⟩ := C31_error_partial cfg dbg buf pre h
  rw [hs]
  constructor
  · rintro ⟨msg, hm⟩
    obtain ⟨rfl, -⟩ := C31_injective hq hp (by rw [hqt, ht]) (Option.some.inj hm)
    rw [← hj, hqr]
  · rintro rfl
    have key : ∀ {p : Place}, p.Sound → p.text = j → p.rest = j → p.above = [] ∧ p.left = [] := by
      intro p _ h1 h2
      have : (p.above ++ p.left) ++ p.rest = [] ++ p.rest := by
        have : (p.above ++ p.left) ++ p.rest = p.text := by simp [Place.text, Place.rest]
        rw [this, h1, h2]; rfl
      exact List.append_eq_nil_iff.1 (List.append_cancel_right this)
    have h1 := key hp ht hj
    have h2 := key hq hqt hqr
    refine ⟨c!"error " ++ k'.debug, ?_⟩
    obtain ⟨a, b, c, d⟩ := p
    obtain ⟨a', b', c', d'⟩ := q
    obtain ⟨rfl, rfl⟩ := h1
    obtain ⟨rfl, rfl⟩ := h2
    simp only [Place.rest] at hj hqr
    have split : ∀ {c d c' d' : Str}, '\n' ∉ c → '\n' ∉ c' → (d = [] ∨ ∃ s, d = '\n' :: s) → (d' = [] ∨ ∃ s, d' = '\n' :: s) →
        c ++ d = c' ++ d' → c = c' := by
      intro c d c' d' h1 h2 h3 h4 h5
      rw [← firstLine_eq h1 h3, ← firstLine_eq h2 h4, h5]
    have := split hq.right hp.right hq.below hp.below (hqr.trans hj.symm)
    simp only at this
    subst this
    rfl

/-- **C31, alignment.** The caret stands below the reported character exactly if the line number has at
most four digits: the text before the character on the first line of the report is as long as the text
before the caret on the second. -/
theorem C31_caret (p : Place) (msg pre : Str) : ∃ a b, 
    p.report msg pre = a ++ p.right ++ c!"\n" ++ b ++ c!"^ " ++ msg ++ c!"\n" ∧
    a = pre ++ lineLabel p.line ++ c!":" ++ p.left ∧
    (a.length = b.length ↔ p.line < 10000) := by
  refine ⟨_, pre ++ c!"     " ++ List.replicate p.left.length ' ', by simp [Place.report], rfl, ?_⟩
  have hd := Nat.length_toDigits_le_iff (b := 10) (n := p.line) (k := 4) (by decide) (by decide)
  rw [lineLabel_eq]
  simp only [padLeft, natText, List.length_append, List.length_replicate, List.length_cons, List.length_nil]
  have : 10 ^ 4 = 10000 := rfl
  omega

/-- A place after a character of several bytes. -/
example : (⟨c!"/\n", c!"  GÉT", c!" Foo", c!"\n"⟩ : Place).Sound ∧
    utf8Len c!"/\n  GÉT" = 8 ∧ (⟨c!"/\n", c!"  GÉT", c!" Foo", c!"\n"⟩ : Place).line = 2 :=
  ⟨⟨.inr ⟨c!"/", rfl⟩, by decide, by decide, .inr ⟨[], rfl⟩⟩, by decide, by decide⟩

example : showError c!"/\n  GÉT Foo\n" 8 c!"oops" c!"> " = some c!">    2:  GÉT Foo\n>           ^ oops\n" := by
  decide +kernel

/-- A file rejected with a list of two positions. -/
example : (match routeConfig (asciiOnly false) c!"/\n  GET Foo\n    [q T]\n" with
    | .failure (.list v) => decide (v = [(c!"  GET Foo\n    [q T]\n", .many1),
        (c!"  GET Foo\n    [q T]\n", .custom c!"Expected resources or child routes")])
    | _ => false) = true := by decide +kernel

/-! ## C32 -/

/-- A step of the registry: a direct registration, or the evaluation of the macro at a place. -/
inductive RegOp where
  | define (msg : Str)
  | site (s : Nat)

/-- The state after a step; `msgs` gives the message at every place. -/
def RegOp.run (msgs : Nat → Str) (st : ErrState) : RegOp → ErrState × Nat
  | .define m => (⟨(defError st.reg m).1, st.memo⟩, (defError st.reg m).2)
  | .site s => errStr st s (msgs s)

/-- The state after a history. -/
def runOps (msgs : Nat → Str) (st : ErrState) (ops : List RegOp) : ErrState :=
  ops.foldl (fun st op => (op.run msgs st).1) st

/-- The message that a step is about. -/
def RegOp.msg (msgs : Nat → Str) : RegOp → Str
  | .define m => m
  | .site s => msgs s

/-- Codes that have been handed out stand for their messages. -/
def ErrState.Good (msgs : Nat → Str) (st : ErrState) : Prop := ∀ s n, st.memo s = some n → st.reg[n]? = some (msgs s)

theorem run_grows (msgs : Nat → Str) (st : ErrState) (op : RegOp) :
    st.reg <+: (op.run msgs st).1.reg ∧ (op.run msgs st).1.reg.length ≤ st.reg.length + 1 := by
  cases op with
  | define m => exact ⟨List.prefix_append _ _, by simp [RegOp.run, defError]⟩
  | site s =>
    simp only [RegOp.run]
    unfold errStr
    split
    · exact ⟨List.prefix_refl _, by simp⟩
    · exact ⟨List.prefix_append _ _, by simp [defError]⟩

theorem runOps_grows (msgs : Nat → Str) : ∀ (ops : List RegOp) (st : ErrState),
    st.reg <+: (runOps msgs st ops).reg ∧ (runOps msgs st ops).reg.length ≤ st.reg.length + ops.length
  | [], st => ⟨List.prefix_refl _, by simp [runOps]⟩
  | op :: ops, st => by
    obtain ⟨h1, h2⟩ := run_grows msgs st op
    obtain ⟨h3, h4⟩ := runOps_grows msgs ops (op.run msgs st).1
    refine ⟨h1.trans h3, ?_⟩
    change (runOps msgs (op.run msgs st).1 ops).reg.length ≤ _
    simp only [List.length_cons]
    omega

theorem prefix_get {a b : List Str} (h : a <+: b) {n : Nat} {m : Str} (hn : a[n]? = some m) : b[n]? = some m := by
  obtain ⟨t, rfl⟩ := h
  have hlt := (List.getElem?_eq_some_iff.1 hn).1
  rw [List.getElem?_append_left hlt]; exact hn

theorem run_good {msgs : Nat → Str} {st : ErrState} (hg : st.Good msgs) (hl : st.reg.length < 2 ^ 32) (op : RegOp) :
    (op.run msgs st).1.Good msgs ∧ (op.run msgs st).1.reg[(op.run msgs st).2]? = some (op.msg msgs) := by
  cases op with
  | define m =>
    refine ⟨fun s n h => ?_, ?_⟩
    · exact prefix_get (List.prefix_append _ _) (hg s n h)
    · simp [RegOp.run, defError, RegOp.msg, Nat.mod_eq_of_lt hl]
  | site s =>
    simp only [RegOp.run]
    unfold errStr
    split
    · rename_i n hn
      exact ⟨hg, hg s n hn⟩
    · refine ⟨fun t n h => ?_, ?_⟩
      · simp only at h
        split at h
        · rename_i e
          cases h
          subst e
          simp [defError, Nat.mod_eq_of_lt hl]
        · exact prefix_get (List.prefix_append _ _) (hg t n h)
      · simp [defError, RegOp.msg, Nat.mod_eq_of_lt hl]

theorem runOps_good {msgs : Nat → Str} : ∀ (ops : List RegOp) {st : ErrState}, st.Good msgs →
    st.reg.length + ops.length ≤ 2 ^ 32 → (runOps msgs st ops).Good msgs
  | [], _, hg, _ => hg
  | op :: ops, st, hg, hl => by
    simp only [List.length_cons] at hl
    have h1 := (run_grows msgs st op).2
    exact runOps_good ops (st := (op.run msgs st).1) (run_good hg (by omega) op).1 (by omega)

/-- **C32.** In every history of at most `2^32` steps: the code returned by a step stands for its
message, immediately and after anything that follows. -/
theorem C32_stable_partial (msgs : Nat → Str) (before after : List RegOp) (op : RegOp)
    (hl : before.length < 2 ^ 32) :
    let st := runOps msgs .init before
    let code := (op.run msgs st).2
    getError (runOps msgs (op.run msgs st).1 after).reg code = some (op.msg msgs) ∧
    customMessage (runOps msgs (op.run msgs st).1 after).reg code = op.msg msgs := by
  intro st code
  have hinit : ErrState.init.Good msgs := fun s n h => by cases h
  have hst := runOps_good before hinit (by simp [ErrState.init]; omega)
  have hlen := (runOps_grows msgs before .init).2
  have hreg : st.reg.length < 2 ^ 32 := by
    change (runOps msgs ErrState.init before).reg.length < _
    simp [ErrState.init] at hlen ⊢
    omega
  have h := prefix_get (runOps_grows msgs after (op.run msgs st).1).1 (run_good hst hreg op).2
  refine ⟨h, ?_⟩
  unfold customMessage getError
  rw [h]

/-- The registered messages are those of distinct places below `k`. -/
def ErrState.Few (k : Nat) (st : ErrState) : Prop := ∃ l : List Nat, l.Nodup ∧ (∀ s ∈ l, s < k) ∧
  st.reg.length = l.length ∧ ∀ s, s ∈ l ↔ st.memo s ≠ none

theorem ErrState.Few.room {k : Nat} {st : ErrState} (h : st.Few k) {s : Nat} (hs : s < k) (hm : st.memo s = none) :
    st.reg.length < k := by
  obtain ⟨l, h1, h2, h3, h4⟩ := h
  have hsl : s ∉ l := fun h => (h4 s).1 h hm
  have := List.Nodup.length_le_of_subset (l₁ := s :: l) (l₂ := List.range k) (List.nodup_cons.2 ⟨hsl, h1⟩)
    (fun x hx => by
      rcases List.mem_cons.1 hx with rfl | hx
      · exact List.mem_range.2 hs
      · exact List.mem_range.2 (h2 x hx))
  simp at this
  omega

theorem ErrState.Few.run {k : Nat} {st : ErrState} (h : st.Few k) (msgs : Nat → Str) {s : Nat} (hs : s < k) :
    ((RegOp.site s).run msgs st).1.Few k := by
  simp only [RegOp.run]
  unfold errStr
  split
  · exact h
  · rename_i hm
    obtain ⟨l, h1, h2, h3, h4⟩ := h
    refine ⟨s :: l, List.nodup_cons.2 ⟨fun h => (h4 s).1 h hm, h1⟩, ?_, by simp [defError, h3], ?_⟩
    · intro x hx
      rcases List.mem_cons.1 hx with rfl | hx
      · exact hs
      · exact h2 x hx
    · intro x
      simp only [List.mem_cons]
      by_cases hx : x = s
      · simp [hx]
      · simp [hx, h4]

/-- **C32, the crate.** The parser registers messages only through `err_str!`, at finitely many places
(`k` of them); each registers at most once, so codes are stable without any bound on the history. -/
theorem C32_sites (msgs : Nat → Str) {k : Nat} (hk : k ≤ 2 ^ 32) (before after : List Nat)
    (hb : ∀ s ∈ before, s < k) (s : Nat) (hs : s < k) :
    let st := runOps msgs .init (before.map .site)
    let code := (errStr st s (msgs s)).2
    getError (runOps msgs (errStr st s (msgs s)).1 (after.map .site)).reg code = some (msgs s) := by
  intro st code
  have key : ∀ (ss : List Nat) (st : ErrState), (∀ s ∈ ss, s < k) → st.Few k → st.Good msgs →
      (runOps msgs st (ss.map .site)).Few k ∧ (runOps msgs st (ss.map .site)).Good msgs := by
    intro ss
    induction ss with
    | nil => intro st _ h1 h2; exact ⟨h1, h2⟩
    | cons s ss ih =>
      intro st hss hf hg
      have hs := hss s (List.mem_cons_self ..)
      by_cases hm : st.memo s = none
      · have hlt := Nat.lt_of_lt_of_le (hf.room hs hm) hk
        exact ih _ (fun t ht => hss t (List.mem_cons_of_mem _ ht)) (hf.run msgs hs) (run_good hg hlt (.site s)).1
      · have : ((RegOp.site s).run msgs st).1 = st := by
          simp only [RegOp.run, errStr]
          cases h : st.memo s with
          | none => exact absurd h hm
          | some n => rfl
        have := ih st (fun t ht => hss t (List.mem_cons_of_mem _ ht)) hf hg
        change (runOps msgs ((RegOp.site s).run msgs st).1 _).Few k ∧ _
        change _ ∧ (runOps msgs ((RegOp.site s).run msgs st).1 _).Good msgs
        simp only [*]
        exact ⟨trivial, trivial⟩
  have h0 : ErrState.init.Few k := ⟨[], List.nodup_nil, by simp, rfl, by simp [ErrState.init]⟩
  obtain ⟨hf, hg⟩ := key before .init hb h0 (fun s n h => by cases h)
  change st.Few k at hf
  change st.Good msgs at hg
  refine prefix_get (runOps_grows msgs (after.map .site) (errStr st s (msgs s)).1).1 ?_
  by_cases hm : st.memo s = none
  · exact (run_good hg (Nat.lt_of_lt_of_le (hf.room hs hm) hk) (.site s)).2
  · cases h : st.memo s with
    | none => exact absurd h hm
    | some n =>
      have h1 : errStr st s (msgs s) = (st, n) := by simp [errStr, h]
      change (errStr st s (msgs s)).1.reg[(errStr st s (msgs s)).2]? = _
      rw [h1]
      exact hg s n h

/-- The six places of the parser, in any order and any number of times. -/
example (msgs : Nat → Str) (before after : List (Fin 6)) (s : Fin 6) :
    getError (runOps msgs (errStr (runOps msgs .init ((before.map Fin.val).map .site)) s (msgs s)).1
      ((after.map Fin.val).map .site)).reg
      (errStr (runOps msgs .init ((before.map Fin.val).map .site)) s (msgs s)).2 = some (msgs s) :=
  C32_sites msgs (k := 6) (by decide) _ _ (by simp) s s.isLt

/-- **C32 fails beyond.** The code is truncated to 32 bits: after `2^32` direct registrations the next
one returns a code that stands for the first message. -/
theorem C32_wrap_false : ∃ (reg : Registry) (msg : Str),
    getError (defError reg msg).1 (defError reg msg).2 ≠ some msg := by
  refine ⟨List.replicate (2 ^ 32) c!"a", c!"b", ?_⟩
  have hlen : (List.replicate (2 ^ 32) c!"a").length = 2 ^ 32 := List.length_replicate
  unfold getError defError
  rw [hlen, Nat.mod_self]
  simp only
  rw [List.getElem?_append_left (by rw [hlen]; exact Nat.pow_pos (by decide)), List.getElem?_replicate,
    if_pos (Nat.pow_pos (by decide))]
  decide

/-- **C32, exact.** A registration returns a code that stands for its message exactly if fewer than `2^32`
messages were registered before, or the message whose place the truncated code names happens to be the same. -/
theorem C32_exact (reg : Registry) (msg : Str) :
    getError (defError reg msg).1 (defError reg msg).2 = some msg ↔
      reg.length < 2 ^ 32 ∨ reg[reg.length % 2 ^ 32]? = some msg := by
  unfold getError defError
  by_cases h : reg.length < 2 ^ 32
  · simp [h, Nat.mod_eq_of_lt h]
  · have : reg.length % 2 ^ 32 < reg.length := by
      have := Nat.mod_lt reg.length (y := 2 ^ 32) (by decide)
      omega
    simp only [h, false_or]
    rw [List.getElem?_append_left this]

theorem code_handed_out (msgs : Nat → Str) {n : Nat} : ∀ (ops : List RegOp) (st : ErrState), st.reg.length + ops.length ≤ 2 ^ 32 →
    st.reg.length ≤ n → n < (runOps msgs st ops).reg.length →
    ∃ before op after, ops = before ++ op :: after ∧ (op.run msgs (runOps msgs st before)).2 = n
  | [], st, _, h1, h2 => by simp only [runOps, List.foldl_nil] at h2; omega
  | op :: ops, st, hl, h1, h2 => by
    simp only [List.length_cons] at hl
    by_cases hn : n < (op.run msgs st).1.reg.length
    · refine ⟨[], op, ops, rfl, ?_⟩
      have hlt : st.reg.length < 2 ^ 32 := by omega
      have hlen := (run_grows msgs st op).2
      have he : n = st.reg.length := by omega
      cases op with
      | define m => simp [runOps, RegOp.run, defError, Nat.mod_eq_of_lt hlt, he]
      | site s =>
        simp only [RegOp.run, runOps, List.foldl_nil] at hn ⊢
        unfold errStr at hn ⊢
        split
        · rename_i k hk
          rw [hk] at hn
          simp only at hn
          omega
        · simp [defError, Nat.mod_eq_of_lt hlt, he]
    · have hlen := (run_grows msgs st op).2
      obtain ⟨b, o, a, h3, h4⟩ := code_handed_out msgs (n := n) ops (op.run msgs st).1 (by omega) (by omega) h2
      exact ⟨op :: b, o, a, by rw [h3]; rfl, h4⟩

/-- **C32, unknown codes.** A code that no step has returned is shown with its number in decimal digits. -/
theorem C32_unknown (msgs : Nat → Str) (ops : List RegOp) (hl : ops.length ≤ 2 ^ 32) {n : Nat}
    (hn : ∀ before op after, ops = before ++ op :: after → (op.run msgs (runOps msgs .init before)).2 ≠ n) :
    ∃ digits, customMessage (runOps msgs .init ops).reg n = c!"Unknown error #" ++ digits ∧ digits ≠ [] ∧ (∀ c ∈ digits, c.isDigit) ∧
      Nat.ofDigitChars 10 digits 0 = n := by
  refine ⟨natText n, ?_, Nat.toDigits_ne_nil, fun c hc => Nat.isDigit_of_mem_toDigits (by decide) (by decide) hc, Nat.ofDigitChars_ten_toDigits⟩
  have h : ¬ n < (runOps msgs .init ops).reg.length := by
    intro h
    obtain ⟨b, o, a, h1, h2⟩ := code_handed_out msgs ops .init (by simpa [ErrState.init] using hl) (by simp [ErrState.init]) h
    exact hn b o a h1 h2
  unfold customMessage getError
  rw [List.getElem?_eq_none (by omega)]

example : customMessage (runOps (fun _ => c!"a") .init [.site 3, .define c!"b"]).reg 12 = c!"Unknown error #12" := by decide +kernel

end Wayfinder
