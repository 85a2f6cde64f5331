import Verif.Spec.Cases
import Verif.Proofs.Lex
import Verif.Props.Build
import Verif.Props.Grammar
import Verif.Props.Generation
import Verif.Props.Diff
import Verif.Props.Pipeline
/-!
# C56: the golden tests
-/

namespace Wayfinder.Cases
open Rust Diff

/-! ## The file of the tests -/

theorem expect_append (as ts : List Tok) : expect as (as ++ ts) = some ts := by
  induction as with
  | nil => rfl
  | cons a as ih => simp [expect, ih]

/-- The tokens of a statement. -/
def stepToks : Step → List Tok
  | .newDest => toks c!"let mut dest = vec![];"
  | .generate shows fails => toks matchText ++ ((if shows then toks showText else []) ++
      ((if fails then toks c!"assert!(false);" else []) ++ toks c!"} }"))
  | .decode => toks c!"let actual = " ++ toks c!"String::from_utf8(dest).expect(\"result as utf8\");"
  | .compare asserted => toks c!"diff::TestResult::new(rs, &actual)" ++ ((if asserted then toks c!".assert()" else []) ++ toks c!";")

set_option maxRecDepth 8000 in
theorem readStep_toks (s : Step) (ts : List Tok) : readStep (stepToks s ++ ts) = some (s, ts) := by
  cases s with
  | newDest => rfl
  | generate a b => cases a <;> cases b <;> rfl
  | decode => rfl
  | compare a => cases a <;> rfl

set_option maxRecDepth 8000 in
theorem step_open (s : Step) (ts : List Tok) : expect (toks c!"}") (stepToks s ++ ts) = none := by
  cases s with
  | newDest => rfl
  | generate a b => rfl
  | decode => rfl
  | compare a => rfl

theorem readSteps_toks (ts : List Tok) : ∀ (ss : List Step) (n : Nat), ss.length < n →
    readSteps n (ss.flatMap stepToks ++ (toks c!"}" ++ ts)) = some (ss, ts)
  | [], 0, h => by simp at h
  | [], n + 1, _ => by simp [readSteps, expect_append]
  | _ :: _, 0, h => by simp at h
  | s :: ss, n + 1, h => by
    rw [readSteps, List.flatMap_cons, List.append_assoc, step_open]
    simp only [readStep_toks, Option.bind_eq_bind, Option.bind_some, readSteps_toks ts ss n (by simpa using h)]
    rfl

theorem step_length (s : Step) : 1 ≤ (stepToks s).length := by
  cases s with
  | newDest => decide
  | generate a b =>
    simp only [stepToks, List.length_append]
    have : 1 ≤ (toks c!"} }").length := by decide
    omega
  | decode => decide
  | compare a =>
    simp only [stepToks, List.length_append]
    have : 1 ≤ (toks c!";").length := by decide
    omega

theorem steps_length (ss : List Step) : ss.length ≤ (ss.flatMap stepToks).length := by
  induction ss with
  | nil => simp
  | cons s ss ih =>
    have := step_length s
    simp only [List.flatMap_cons, List.length_append, List.length_cons]
    omega

/-- The tokens of a test function. -/
def goldenToks (g : Golden) : List Tok :=
  toks c!"#[test] fn" ++ ([.word g.name] ++ (toks c!"() { let routes = include_str!(" ++ ([.str false g.routes] ++
    (toks c!"); let rs = include_str!(" ++ ([.str false g.rs] ++ (toks c!");" ++ (g.steps.flatMap stepToks ++ toks c!"}")))))))

theorem readGolden_toks (g : Golden) (ts : List Tok) : readGolden (goldenToks g ++ ts) = some (g, ts) := by
  unfold readGolden goldenToks
  simp only [List.append_assoc, expect_append, Option.bind_eq_bind, Option.bind_some, List.cons_append, List.nil_append,
    expectWord, expectStr]
  rw [readSteps_toks]
  · rfl
  · have := steps_length g.steps
    simp only [List.length_append]
    omega

set_option maxRecDepth 8000 in
/-- The statements that the build script writes are those of a golden test. -/
theorem lexes_body : Lexes bodyText ([Step.newDest, .generate true true, .decode, .compare true].flatMap stepToks) := by
  refine lexes_lit (ts := (run .neutral bodyText).1) (us := (settled (run .neutral bodyText).2).getD []) rfl ?_
  decide +kernel

/-- Running these statements. -/
theorem runSteps_golden (w : Machine) (diffLines : Str → Str → List DiffOp) (routes rs : Str) :
    runSteps w diffLines routes rs [.newDest, .generate true true, .decode, .compare true] none none =
      some (goldenTest w diffLines routes rs) := by
  simp only [runSteps, goldenTest, if_true, List.nil_append]
  cases routeConfig w.cfg routes with
  | ok rest c =>
    simp only
    cases (codegenIn w c).fail with
    | some _ => rfl
    | none =>
      simp only
      cases fromUtf8 (encode (codegenIn w c).text) with
      | none => rfl
      | some actual =>
        simp only
        cases assertSame diffLines rs actual <;> rfl
  | error e =>
    simp only
    cases showErrors w.dbg routes (.error e) [] <;> rfl
  | failure e =>
    simp only
    cases showErrors w.dbg routes (.failure e) [] <;> rfl

theorem golden_length (g : Golden) : 2 ≤ (goldenToks g).length := by
  simp only [goldenToks, List.length_append, List.length_cons, List.length_nil]
  omega

theorem lexes_case {join : Str → Str → Str} {e : Entry} (h : e.Plain join) :
    Lexes (caseText join e) (goldenToks (e.golden join)) := by
  obtain ⟨hn, hr, hs⟩ := h
  have hw : Rust.Word (c!"test_" ++ e.name) := ⟨by simp, by
    intro c hc
    rcases List.mem_append.1 hc with hc | hc
    · exact (by decide : ∀ c ∈ c!"test_", isWordChar c = true) c hc
    · exact hn c hc⟩
  have h1 : Lexes c!"    #[test]\n    fn " (toks c!"#[test] fn") := lexes_of (ts := toks c!"#[test] fn") (us := []) rfl rfl
  have h2 : Lexes ((c!"test_" ++ e.name) ++ c!"() {\n") (.word (c!"test_" ++ e.name) :: toks c!"() {") :=
    lexes_word hw (us := []) rfl rfl
  have h3 := lexes_str (b := false) (a := c!"        let routes = include_str!(\"") (s := c!"\");\n")
    (vs := toks c!"let routes = include_str!(") (ts := .str false (join e.path c!"routes.routes") :: toks c!");")
    (us := []) (st := .neutral) (fun c hc => textChar_plain (hr c hc)) rfl rfl rfl
  have h4 := lexes_str (b := false) (a := c!"        let rs = include_str!(\"") (s := c!"\");\n")
    (vs := toks c!"let rs = include_str!(") (ts := .str false (join e.path c!"routes.rs") :: toks c!");")
    (us := []) (st := .neutral) (fun c hc => textChar_plain (hs c hc)) rfl rfl rfl
  have h5 : Lexes c!"    }\n" (toks c!"}") := lexes_of (ts := toks c!"}") (us := []) rfl rfl
  have := ((((h1.append h2).append h3).append h4).append lexes_body).append h5
  have e1 : toks c!"() { let routes = include_str!(" = toks c!"() {" ++ toks c!"let routes = include_str!(" := rfl
  have e2 : toks c!"); let rs = include_str!(" = toks c!");" ++ toks c!"let rs = include_str!(" := rfl
  unfold caseText goldenToks Entry.golden
  rw [e1, e2]
  simpa using this

theorem readGoldens_toks (gs : List Golden) : ∀ n, gs.length < n →
    readGoldens n (gs.flatMap goldenToks ++ toks c!"}") = some gs := by
  induction gs with
  | nil => intro n hn; cases n with
    | zero => simp at hn
    | succ n => simp [readGoldens]
  | cons g gs ih => intro n hn; cases n with
    | zero => simp at hn
    | succ n =>
      have hne : ((g :: gs).flatMap goldenToks ++ toks c!"}") ≠ toks c!"}" := by
        intro he
        have := congrArg List.length he
        have := golden_length g
        simp only [List.flatMap_cons, List.length_append] at *
        omega
      rw [readGoldens, if_neg hne]
      simp only [List.flatMap_cons, List.append_assoc, readGolden_toks, Option.bind_eq_bind, Option.bind_some,
        ih n (by simpa using hn)]
      rfl

/-- **C56, the file.** The file written for the entries is a Rust program with exactly one test for each, in their order. -/
theorem C56_file {join : Str → Str → Str} {entries : List Entry} (h : ∀ e ∈ entries, e.Plain join) :
    readFile (writeCases join entries) = some (entries.map (Entry.golden join)) := by
  have h0 : Lexes (c!"#[cfg(test)]\n" ++ c!"mod test_cases {\n" ++ c!"    use super::diff;\n")
      (toks c!"#[cfg(test)] mod test_cases { use super::diff;") :=
    lexes_of (ts := toks c!"#[cfg(test)] mod test_cases { use super::diff;") (us := []) rfl rfl
  have h1 := Lexes.flatten (f := caseText join) (g := fun e => goldenToks (e.golden join)) fun e he => lexes_case (h e he)
  have h2 : Lexes c!"}" (toks c!"}") := lexes_of (ts := []) (us := [.op ['}']]) rfl rfl
  have hl := ((h0.append h1).append h2).lex
  have hw : writeCases join entries = (c!"#[cfg(test)]\n" ++ c!"mod test_cases {\n" ++ c!"    use super::diff;\n" ++
      (entries.map (caseText join)).flatten ++ c!"}") ++ c!"\n" := by simp [writeCases]
  have hm : entries.flatMap (fun e => goldenToks (e.golden join)) = (entries.map (Entry.golden join)).flatMap goldenToks := by
    rw [List.flatMap_map]
  unfold readFile
  rw [hw, hl]
  simp only [Option.bind_eq_bind, Option.bind_some, List.append_assoc, expect_append, hm]
  refine readGoldens_toks _ _ ?_
  have hlen : ∀ gs : List Golden, gs.length ≤ (gs.flatMap goldenToks).length := by
    intro gs
    induction gs with
    | nil => simp
    | cons g gs ih =>
      have := golden_length g
      simp only [List.flatMap_cons, List.length_append, List.length_cons]
      omega
  have := hlen (entries.map (Entry.golden join))
  simp only [List.length_append]
  omega

theorem mapM_some {α β : Type} {f : α → Option β} {g : α → β} {l : List α} (h : ∀ a ∈ l, f a = some (g a)) :
    l.mapM f = some (l.map g) := by
  induction l with
  | nil => rfl
  | cons a l ih =>
    rw [List.mapM_cons, h a (List.mem_cons_self ..), ih fun b hb => h b (List.mem_cons_of_mem _ hb)]
    rfl

theorem golden_names {join : Str → Str → Str} {entries : List Entry} (h : (entries.map Entry.name).Nodup) :
    ((entries.map (Entry.golden join)).map Golden.name).Nodup := by
  rw [List.map_map]
  have : Golden.name ∘ Entry.golden join = (fun s => c!"test_" ++ s) ∘ Entry.name := rfl
  rw [this, ← List.map_map]
  exact h.map fun a b hab => List.append_cancel_left hab

/-- **C56, the tests that run.** If the names are distinct and both files of each entry can be read, each entry is tested
once, with the texts of its own two files. -/
theorem C56_runs (w : Machine) (diffLines : Str → Str → List DiffOp) {entries : List Entry}
    (h : ∀ e ∈ entries, e.Plain w.join) (hd : (entries.map Entry.name).Nodup) {routes rs : Entry → Str}
    (h1 : ∀ e ∈ entries, w.read (w.join e.path c!"routes.routes") = some (routes e))
    (h2 : ∀ e ∈ entries, w.read (w.join e.path c!"routes.rs") = some (rs e)) :
    cargoTest w diffLines (writeCases w.join entries) =
      some (entries.map fun e => (c!"test_" ++ e.name, goldenTest w diffLines (routes e) (rs e))) := by
  unfold cargoTest
  rw [C56_file h]
  simp only [Option.bind_eq_bind, Option.bind_some, golden_names hd, if_true]
  rw [mapM_some (g := fun g => (g.name, goldenTest w diffLines ((w.read g.routes).getD []) ((w.read g.rs).getD [])))]
  · rw [List.map_map]
    congr 1
    refine List.map_congr_left fun e he => ?_
    simp [Entry.golden, h1 e he, h2 e he]
  · intro g hg
    obtain ⟨e, he, rfl⟩ := List.mem_map.1 hg
    simp [Entry.golden, h1 e he, h2 e he, runSteps_golden]

/-- **C56, missing files.** If one of the files cannot be read, no test runs at all. -/
theorem C56_missing (w : Machine) (diffLines : Str → Str → List DiffOp) {entries : List Entry}
    (h : ∀ e ∈ entries, e.Plain w.join) {e : Entry} (he : e ∈ entries)
    (hm : w.read (w.join e.path c!"routes.routes") = none ∨ w.read (w.join e.path c!"routes.rs") = none) :
    cargoTest w diffLines (writeCases w.join entries) = none := by
  unfold cargoTest
  rw [C56_file h]
  simp only [Option.bind_eq_bind, Option.bind_some]
  split
  · have key : ∀ (f : Golden → Option (Str × Run)) (l : List Golden) (g : Golden), g ∈ l → f g = none → l.mapM f = none := by
      intro f l g hg hf
      induction l with
      | nil => simp at hg
      | cons a l ih =>
        rw [List.mapM_cons]
        rcases List.mem_cons.1 hg with rfl | hg
        · rw [hf]; rfl
        · rw [ih hg]; cases f a <;> rfl
    refine key _ _ (e.golden w.join) (List.mem_map_of_mem he) ?_
    rcases hm with hm | hm
    · simp [Entry.golden, hm]
    · cases hr : w.read (w.join e.path c!"routes.routes") <;> simp [Entry.golden, hm, hr]
  · rfl

/-! ## What a test says -/

/-- **C56, the verdict.** A golden test passes exactly if the one file is a route file of a configuration for which code can be
generated, and the other is this code, character by character. -/
theorem C56_verdict (w : Machine) (hw : w.Sound) (diffLines : Str → Str → List DiffOp) (routes rs : Str) :
    (goldenTest w diffLines routes rs).ending = .returned ↔ ∃ c, FileText w.cfg c routes ∧
      (DistinctSiblings c.routes ∧ DistinctActions c.routes ∧ c.routes ≠ .mk [] [] []) ∧ rs = (codegen c).text := by
  have hg := C46_grammar w.cfg routes
  unfold goldenTest
  cases hp : routeConfig w.cfg routes with
  | ok rest c =>
    have hc : ∀ c', FileText w.cfg c' routes ↔ c' = c := by
      intro c'
      rw [← hg, hp]
      constructor
      · rintro ⟨_, h⟩; injection h with _ h; exact h.symm
      · rintro rfl; exact ⟨rest, rfl⟩
    simp only [hc, codegenIn_eq hw, exists_eq_left, ← C20_exact]
    cases hf : (codegen c).fail with
    | some x => simp
    | none =>
      rw [show fromUtf8 (encode (codegen c).text) = some (codegen c).text from fromUtf8_utf8 _]
      simp only [assertSame, true_and]
      by_cases he : rs = (codegen c).text <;> simp [he]
  | _ =>
    have hc : ∀ c', ¬ FileText w.cfg c' routes := by
      intro c' h
      obtain ⟨_, h⟩ := (hg c').2 h
      rw [hp] at h; cases h
    simp only [hc, false_and, exists_false, iff_false]
    split <;> simp

/-- **C56, the build.** A golden test passes exactly if the builder, for the same route file, writes exactly the bytes of the
expected file. -/
theorem C56_build (w : Machine) (hw : w.Sound) (diffLines : Str → Str → List DiffOp) {b : Builder} {name routes : Str}
    (hs : b.source = some (.file name)) (hr : w.read (b.inputPath w name) = some routes) (ho : b.Opens w)
    (hc : w.capacity = none) (rs : Str) :
    (goldenTest w diffLines routes rs).ending = .returned ↔
      (b.build w).ending = .returned ∧ (b.build w).written = encode rs := by
  have hload : ∀ c, b.Loads w c ↔ FileText w.cfg c routes := by
    intro c
    rw [← C46_grammar]
    constructor
    · intro h
      cases h with
      | config h => rw [hs] at h; cases h
      | file h1 h2 h3 =>
        rw [hs] at h1; cases h1
        rw [hr] at h2; cases h2
        exact ⟨_, h3⟩
    · rintro ⟨rest, h⟩
      have := C30_consumes w.cfg h
      subst this
      exact .file hs hr h
  rw [C56_verdict w hw]
  constructor
  · rintro ⟨c, h1, h2, rfl⟩
    have hx : (b.build w).ending = .returned := by
      by_contra hne
      rcases build_cases w b with ⟨c', t, h1', ht, h3⟩ | ⟨h | h, _⟩
      · have : c' = c := C46_unambiguous w.cfg ((hload c').1 h1') h1
        subst this
        rcases writeTarget_spec w b t c' ht with ⟨_, he, _⟩ | ⟨hno, _⟩
        · apply hne
          rw [h3, Run.after_ending, he, codegenIn_eq hw]
          have hf := (C20_exact c').2 h2
          simp only [writeCode, hf, hc]
          rfl
        · exact hno ho
      · rcases ho with ho | ⟨_, ho, _⟩ <;> rw [h] at ho <;> cases ho
      · exact h c ((hload c).2 h1)
    refine ⟨hx, ?_⟩
    obtain ⟨c', h1', _, _, _, hw'⟩ := (C37_success w hw b).1 hx
    rw [hw', C46_unambiguous w.cfg ((hload c').1 h1') h1]
  · rintro ⟨hx, he⟩
    obtain ⟨c, h1, _, h2, _, hw'⟩ := (C37_success w hw b).1 hx
    refine ⟨c, (hload c).1 h1, h2, utf8_inj ?_⟩
    rw [hw'] at he
    exact he.symm

/-- **C56, what a failed comparison prints.** If code can be generated but is not the expected one, the test prints one report,
and its hunks turn the expected file into the generated one. -/
theorem C56_report (w : Machine) (hw : w.Sound) {diffLines : Str → Str → List DiffOp} {linesOf : Str → List Str}
    (hd : ∀ a b, Script (diffLines a b) (linesOf a) (linesOf b)) {c : RouteConfig} {routes rs : Str}
    (hf : FileText w.cfg c routes)
    (hg : DistinctSiblings c.routes ∧ DistinctActions c.routes ∧ c.routes ≠ .mk [] [] []) (hne : rs ≠ (codegen c).text) :
    goldenTest w diffLines routes rs =
      ⟨[.stderr (display c!"expected" c!"actual" (diffLines rs (codegen c).text) ++ c!"\n")], .panicked⟩ ∧
    patch 1 1 (linesOf rs) (toChunks c!"expected" c!"actual" (diffLines rs (codegen c).text)) =
      some (linesOf (codegen c).text) := by
  refine ⟨?_, C54_patch (hd _ _) _ _⟩
  obtain ⟨rest, hp⟩ := (C46_grammar w.cfg routes c).2 hf
  unfold goldenTest
  rw [hp]
  simp only [codegenIn_eq hw, (C20_exact c).2 hg]
  rw [show fromUtf8 (encode (codegen c).text) = some (codegen c).text from fromUtf8_utf8 _]
  simp [assertSame, hne]

/-! ## Examples -/

/-- Two cases; the file system has the route file of the people application in both. -/
def caseMachine : Machine := { peopleMachine with
  read := fun p => if c!".routes" <:+ p then some peopleText else some (codegen ⟨[], Demo.people⟩).text }

def caseEntries : List Entry := [⟨c!"people", c!"/t/cases/people"⟩, ⟨c!"books_2", c!"/t/cases/books_2"⟩]

theorem caseMachine_sound : caseMachine.Sound := peopleMachine_sound

theorem caseEntries_plain : ∀ e ∈ caseEntries, e.Plain caseMachine.join := by
  intro e he
  simp only [caseEntries, List.mem_cons, List.not_mem_nil, or_false] at he
  rcases he with rfl | rfl <;> exact ⟨by decide, by decide, by decide⟩

/-- Premises of `C56_runs`. -/
example : (caseEntries.map Entry.name).Nodup ∧
    (∀ e ∈ caseEntries, caseMachine.read (caseMachine.join e.path c!"routes.routes") = some peopleText) ∧
    (∀ e ∈ caseEntries, caseMachine.read (caseMachine.join e.path c!"routes.rs") = some (codegen ⟨[], Demo.people⟩).text) := by
  refine ⟨by decide, ?_, ?_⟩ <;> intro e he <;>
    simp only [caseEntries, List.mem_cons, List.not_mem_nil, or_false] at he <;> rcases he with rfl | rfl <;> rfl

theorem people_generates : DistinctSiblings Demo.people ∧ DistinctActions Demo.people ∧ Demo.people ≠ .mk [] [] [] :=
  (C20_exact ⟨[], Demo.people⟩).1 (by decide +kernel)

theorem people_file : FileText caseMachine.cfg ⟨[], Demo.people⟩ peopleText := (C46_grammar _ _ _).1 ⟨_, people_parsed⟩

/-- The test passes with the generated text, and fails if one character more is expected. -/
example (diffLines : Str → Str → List DiffOp) :
    (goldenTest caseMachine diffLines peopleText (codegen ⟨[], Demo.people⟩).text).ending = .returned ∧
    (goldenTest caseMachine diffLines peopleText ((codegen ⟨[], Demo.people⟩).text ++ c!"\n")).ending ≠ .returned := by
  rw [ne_eq, C56_verdict _ caseMachine_sound, C56_verdict _ caseMachine_sound]
  refine ⟨⟨_, people_file, people_generates, rfl⟩, ?_⟩
  rintro ⟨c, h1, _, h3⟩
  rw [C46_unambiguous _ h1 people_file] at h3
  simpa using congrArg List.length h3

/-- Premises of `C56_build`: the build of the people application writes the expected file. -/
example (diffLines : Str → Str → List DiffOp) :
    ((demoBuilder c!"people.routes").build peopleMachine).written = encode (codegen ⟨[], Demo.people⟩).text := by
  refine ((C56_build peopleMachine peopleMachine_sound diffLines (b := demoBuilder c!"people.routes") rfl rfl
    (.inr ⟨_, rfl, by decide +kernel⟩) rfl _).1 ?_).2
  exact (C56_verdict _ peopleMachine_sound _ _ _).2 ⟨_, people_file, people_generates, rfl⟩

/-- A case of `C56_report`: the empty file is expected. -/
example : ∃ msg, goldenTest caseMachine (fun a b => [.replace [a] [b]]) peopleText [] = ⟨[.stderr msg], .panicked⟩ :=
  ⟨_, (C56_report _ caseMachine_sound (linesOf := fun a => [a]) (fun _ _ => ⟨rfl, rfl⟩) people_file people_generates
    (by decide +kernel)).1⟩

/-- A case of `C56_missing`: no file at these places. -/
example (diffLines : Str → Str → List DiffOp) :
    cargoTest peopleMachine diffLines (writeCases peopleMachine.join caseEntries) = none :=
  C56_missing _ _ caseEntries_plain (List.mem_cons_self ..) (.inl (by decide))

/-- **C56, names.** The script does not look at the names: one directory called `a-b` and there are no tests at all. -/
theorem C56_dash : readFile (writeCases caseMachine.join [⟨c!"people", c!"/t"⟩]) ≠ none ∧
    readFile (writeCases caseMachine.join [⟨c!"people", c!"/t"⟩, ⟨c!"a-b", c!"/t"⟩]) = none := by
  decide +kernel

end Wayfinder.Cases
