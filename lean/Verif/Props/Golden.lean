import Verif.Model.CaseFiles
import Verif.Props.Cases
import Verif.Props.Goal
/-!
# C56: the golden tests that the project ships
-/

namespace Wayfinder.Cases

/-- Compare two texts. -/
def sameStr : Str → Str → Bool
  | [], [] => true
  | a :: s, b :: t => if a = b then sameStr s t else false
  | _, _ => false

theorem sameStr_eq : ∀ {s t : Str}, sameStr s t = true → s = t
  | [], [], _ => rfl
  | [], _ :: _, h => by simp [sameStr] at h
  | _ :: _, [], h => by simp [sameStr] at h
  | a :: s, b :: t, h => by
    simp only [sameStr] at h
    split at h
    · rename_i e
      rw [e, sameStr_eq h]
    · cases h

theorem commons_same : sameStr (codegen Shipped.commons).text commonsRs = true := by decide +kernel
theorem nesting_same : sameStr (codegen Shipped.nesting).text nestingRs = true := by decide +kernel
theorem example_same : sameStr (codegen Goal.config).text exampleRs = true := by decide +kernel

open Diff

theorem golden_passes {w : Machine} (hw : w.Sound) (diffLines : Str → Str → List DiffOp) {routes rs : Str} {c : RouteConfig} {rest : Str}
    (hp : routeConfig w.cfg routes = .ok rest c) (hf : (codegen c).fail = none) (ht : sameStr (codegen c).text rs = true) :
    goldenTest w diffLines routes rs = ⟨[], .returned⟩ := by
  unfold goldenTest
  rw [hp]
  simp only [codegenIn_eq hw, hf]
  rw [show fromUtf8 (encode (codegen c).text) = some (codegen c).text from fromUtf8_utf8 _]
  simp [assertSame, sameStr_eq ht]

/-- **C56, the shipped files.** For each directory in `wayfinder-tests/cases` the generator writes the expected file, character by
character, whichever way the parser is read and the hash maps are drained. -/
theorem C56_shipped (w : Machine) (hw : w.Sound) (diffLines : Str → Str → List DiffOp) :
    goldenTest w diffLines Shipped.commonsText commonsRs = ⟨[], .returned⟩ ∧
    goldenTest w diffLines Goal.source exampleRs = ⟨[], .returned⟩ ∧
    goldenTest w diffLines Shipped.nestingText nestingRs = ⟨[], .returned⟩ :=
  ⟨golden_passes hw diffLines (Shipped.C59_files w.cfg).2.1 (by decide +kernel) commons_same,
   golden_passes hw diffLines (Goal.C62_file.1 w.cfg) Goal.config_clean.generated example_same,
   golden_passes hw diffLines (Shipped.C59_files w.cfg).2.2 (by decide +kernel) nesting_same⟩

/-- The files of a directory in `wayfinder-tests/cases`. -/
def HasFiles (w : Machine) (e : Entry) (routes rs : Str) : Prop :=
  w.read (w.join e.path c!"routes.routes") = some routes ∧ w.read (w.join e.path c!"routes.rs") = some rs

/-- **C56, the shipped tests.** Wherever the three directories are and in whatever order they are listed, `cargo test` runs three
tests, and all of them pass without printing anything. -/
theorem C56_passes (w : Machine) (hw : w.Sound) (diffLines : Str → Str → List DiffOp) {entries : List Entry}
    (h : ∀ e ∈ entries, e.Plain w.join) (hn : (entries.map Entry.name).Perm [c!"commons", c!"example", c!"nesting"])
    (h1 : ∀ e ∈ entries, e.name = c!"commons" → HasFiles w e Shipped.commonsText commonsRs)
    (h2 : ∀ e ∈ entries, e.name = c!"example" → HasFiles w e Goal.source exampleRs)
    (h3 : ∀ e ∈ entries, e.name = c!"nesting" → HasFiles w e Shipped.nestingText nestingRs) :
    cargoTest w diffLines (writeCases w.join entries) = some (entries.map fun e => (c!"test_" ++ e.name, ⟨[], .returned⟩)) := by
  have hd : (entries.map Entry.name).Nodup := hn.nodup_iff.2 (by decide)
  have key : ∀ e ∈ entries, ∃ routes rs, HasFiles w e routes rs ∧ goldenTest w diffLines routes rs = ⟨[], .returned⟩ := by
    intro e he
    obtain ⟨g1, g2, g3⟩ := C56_shipped w hw diffLines
    have := hn.mem_iff.1 (List.mem_map_of_mem he)
    simp only [List.mem_cons, List.not_mem_nil, or_false] at this
    rcases this with e' | e' | e'
    · exact ⟨_, _, h1 e he e', g1⟩
    · exact ⟨_, _, h2 e he e', g2⟩
    · exact ⟨_, _, h3 e he e', g3⟩
  rw [C56_runs w diffLines h hd (routes := fun e => (w.read (w.join e.path c!"routes.routes")).getD [])
    (rs := fun e => (w.read (w.join e.path c!"routes.rs")).getD [])]
  · congr 1
    refine List.map_congr_left fun e he => ?_
    obtain ⟨routes, rs, hs, hg⟩ := key e he
    simp only [hs.1, hs.2, Option.getD_some, hg]
  · intro e he
    obtain ⟨routes, rs, hs, hg⟩ := key e he
    simp [hs.1]
  · intro e he
    obtain ⟨routes, rs, hs, hg⟩ := key e he
    simp [hs.2]

/-! ## Example -/

/-- A machine with the three directories. -/
def repoMachine : Machine := { peopleMachine with
  join := fun a b => a ++ (c!"/" ++ b)
  read := fun p =>
    if p = c!"cases/commons/routes.routes" then some Shipped.commonsText
    else if p = c!"cases/commons/routes.rs" then some commonsRs
    else if p = c!"cases/example/routes.routes" then some Goal.source
    else if p = c!"cases/example/routes.rs" then some exampleRs
    else if p = c!"cases/nesting/routes.routes" then some Shipped.nestingText
    else if p = c!"cases/nesting/routes.rs" then some nestingRs
    else none }

def repoEntries : List Entry := [⟨c!"nesting", c!"cases/nesting"⟩, ⟨c!"commons", c!"cases/commons"⟩, ⟨c!"example", c!"cases/example"⟩]

/-- Its tests pass. -/
example (diffLines : Str → Str → List DiffOp) : cargoTest repoMachine diffLines (writeCases repoMachine.join repoEntries) =
    some [(c!"test_nesting", ⟨[], .returned⟩), (c!"test_commons", ⟨[], .returned⟩), (c!"test_example", ⟨[], .returned⟩)] := by
  refine C56_passes repoMachine peopleMachine_sound diffLines (entries := repoEntries) ?_ (by decide) ?_ ?_ ?_ <;> intro e he <;>
    simp only [repoEntries, List.mem_cons, List.not_mem_nil, or_false] at he <;> rcases he with rfl | rfl | rfl
  all_goals first
    | exact ⟨by decide, by decide, by decide⟩
    | exact fun h => absurd h (by decide)
    | exact fun _ => ⟨rfl, rfl⟩

end Wayfinder.Cases
