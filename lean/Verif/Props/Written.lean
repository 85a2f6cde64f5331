import Verif.Props.Taken
import Verif.Props.Ascii
import Verif.Props.Sound
/-!
# C100: what an accepted file answers, whatever its parameters are called

C96 leaves out configurations with parameters called `start` and `len`.
-/

namespace Wayfinder
open Rust

variable {W : World} {c : RouteConfig}

/-- An accepted file contains the program of the configuration with the types of the fields, whatever its words. -/
theorem accepted_program (hg : (codegen c).fail = none) (hh : HeadersRead c.headers) (hw : WordsIn Rust.Word c.routes) {m : Mod}
    {b : List Stmt} (e : readText (headerToks c.headers) (codegen c).text = some (m, b)) {τ : Typing} (hτ : Typed c.routes τ) :
    ∃ body, matcherBody (c.routes.retype τ) = .ok body ∧ compiles body = true ∧ ∀ (W : World) (path verb : Bytes),
      callText W (headerToks c.headers) (codegen c).text path verb = Outcome.inRust (callMatchRoute W body path verb) := by
  obtain ⟨root, body, hr, hb, -⟩ := codegen_text hg
  obtain ⟨body', hb', hc, rfl, rfl, -, -⟩ := retyped_meaning (accepted_legible hg hh hw e) hr hb e hτ
  exact ⟨body', hb', hc, fun W path verb => by simp only [callText, e]; exact emit_call path verb body'⟩

/-- **C100.** An accepted file answers every request that does not pass through a parameter called `len` as the configuration
says, but for the field called `start`. -/
theorem C100_near (hg : (codegen c).fail = none) (hh : HeadersRead c.headers) (hw : WordsIn Rust.Word c.routes) {m : Mod}
    {b : List Stmt} (e : readText (headerToks c.headers) (codegen c).text = some (m, b)) {τ : Typing} (hτ : Typed c.routes τ)
    {path : Bytes} (hn : ¬ PassesLen W (c.routes.retype τ) path) (verb : Bytes) :
    ∃ o : Outcome W, callText W (headerToks c.headers) (codegen c).text path verb = Outcome.inRust o ∧
      o.Near path (referenceRouter W (c.routes.retype τ) path verb) := by
  obtain ⟨body, hb, hc, h⟩ := accepted_program hg hh hw e hτ
  exact ⟨_, h W path verb, C99_near hb hc hn verb⟩

/-- **C100, no parameter behind one called `start`.** With this C96 is the case in which nothing is called `len`. -/
theorem C100_exact (hg : (codegen c).fail = none) (hh : HeadersRead c.headers) (hw : WordsIn Rust.Word c.routes) {m : Mod}
    {b : List Stmt} (e : readText (headerToks c.headers) (codegen c).text = some (m, b)) {τ : Typing} (hτ : Typed c.routes τ)
    (hs : ¬ StartHidden (c.routes.retype τ)) {path : Bytes} (hn : ¬ PassesLen W (c.routes.retype τ) path) (verb : Bytes) :
    callText W (headerToks c.headers) (codegen c).text path verb =
      Outcome.inRust (referenceRouter W (c.routes.retype τ) path verb) := by
  obtain ⟨body, hb, hc, h⟩ := accepted_program hg hh hw e hτ
  rw [h, C99_exact hb hc hs hn]

/-- **C100, an answer.** An accepted file answers every request: no variable is missing or of the wrong type. -/
theorem C100_answers (hW : W.Sound) (hg : (codegen c).fail = none) (hh : HeadersRead c.headers) (hw : WordsIn Rust.Word c.routes)
    {m : Mod} {b : List Stmt} (e : readText (headerToks c.headers) (codegen c).text = some (m, b)) {τ : Typing}
    (hτ : Typed c.routes τ) (path verb : Bytes) :
    callText W (headerToks c.headers) (codegen c).text path verb ≠ .rejected := by
  obtain ⟨body, hb, hc, h⟩ := accepted_program hg hh hw e hτ
  have := (C97_answers hW hb path verb).2 hc
  rw [h]
  intro h'
  cases e' : callMatchRoute W body path verb <;> rw [e'] at h' <;> first | exact this e' | cases h'

/-- **C100, builds.** The bytes that a build from a route file writes: if they are accepted, they answer every request, and
those that do not pass through a parameter called `len` as the file says, but for the field called `start`. -/
theorem C100_build (w : Machine) (hw : w.Sound) {b : Builder} {name : Str} (hb : b.source = some (.file name))
    (h : (b.build w).ending = .returned) :
    ∃ contents c, w.read (b.inputPath w name) = some contents ∧ FileText w.cfg c contents ∧ (b.build w).written = utf8 (codegen c).text ∧
      (HeadersRead c.headers → AcceptedFile (headerToks c.headers) (b.build w).written → ∀ τ, Typed c.routes τ →
        ∀ (W : World) (path verb : Bytes),
          (W.Sound → callFile W (headerToks c.headers) (b.build w).written path verb ≠ .rejected) ∧
          (¬ PassesLen W (c.routes.retype τ) path →
            ∃ o : Outcome W, callFile W (headerToks c.headers) (b.build w).written path verb = Outcome.inRust o ∧
              o.Near path (referenceRouter W (c.routes.retype τ) path verb))) := by
  obtain ⟨c, hl, -, hd, -, hwr⟩ := (C37_success w hw b).1 h
  cases hl with
  | config he => rw [hb] at he; cases he
  | file he hr hp =>
    rw [hb] at he
    cases he
    refine ⟨_, c, hr, (C46_grammar _ _ _).1 ⟨_, hp⟩, hwr, fun hh hacc τ hτ W path verb => ?_⟩
    have haw := (C29_written _ hp).2.spoken
    have hg := (C20_exact c).2 hd
    have hu : fromUtf8 (b.build w).written = some (codegen c).text := by rw [hwr]; exact fromUtf8_utf8 _
    obtain ⟨t, m, b', h1, e⟩ := hacc
    rw [hu] at h1; cases h1
    simp only [callFile, hu]
    exact ⟨fun hW => C100_answers hW hg hh haw e hτ path verb, fun hn => C100_near hg hh haw e hτ hn verb⟩

/-! ## A case -/

namespace Demo

theorem files_accepted : Ready (conf files) ∧
    ∃ m b, readText (headerToks (conf files).headers) (codegen (conf files)).text = some (m, b) :=
  accepted_of (by decide +kernel)

theorem files_redirects : RedirectTypes files := by
  intro segs query res h hr
  have key : ∀ x ∈ declared files, x.2.2.isRedirect = false := by decide +kernel
  have := key _ (mem_declared.2 (emitted_declares h))
  simp [hr] at this

theorem files_typed : Typed files ownTypes ∧ files.retype ownTypes = files :=
  (C49_agreeing files_accepted.1 files_redirects).2 ((C49_agreeing files_accepted.1 files_redirects).1.1 files_accepted.2).2.2.2.1

end Demo

open Demo in
/-- The theorems applied to the file with `/files/{len}`: every path that does not begin with `/files/` is answered as the
configuration says, and every request at all is answered. -/
theorem C100_applies (path verb : Bytes) :
    (¬ bytesOf c!"files/" <+: stripSlash path ++ [slash] →
      callText W (headerToks (conf files).headers) (codegen (conf files)).text path verb =
        Outcome.inRust (referenceRouter W files path verb)) ∧
    (W.Sound → callText W (headerToks (conf files).headers) (codegen (conf files)).text path verb ≠ .rejected) := by
  obtain ⟨hr, m, b, e⟩ := files_accepted
  obtain ⟨ht, hf⟩ := files_typed
  have hw : WordsIn Rust.Word files := spoken_of (by decide +kernel)
  have hs : ¬ StartHidden files := startFree_of (by decide +kernel)
  constructor
  · intro hn
    have h := C100_exact (W := W) (c := conf files) hr.generated hr.headers hw e ht (path := path)
    rw [show (conf files).routes = files from rfl, hf] at h
    exact h hs (fun h' => hn (files_passes h')) verb
  · exact fun hW => C100_answers (c := conf files) hW hr.generated hr.headers hw e ht path verb

namespace Demo

/-- The route file of the case. -/
def filesText : Str := RouteConfig.stringify (conf files)

set_option maxRecDepth 100000 in
theorem files_parsed : routeConfig (asciiOnly false) filesText = .ok [] (conf files) := rfl

def filesMachine : Machine := { demoMachine none with read := fun p => if p = c!"in/files.routes" then some filesText else none }

theorem filesMachine_sound : filesMachine.Sound := demoMachine_sound none

theorem files_built : ((demoBuilder c!"files.routes").build filesMachine).ending = .returned := by decide +kernel

end Demo

open Demo in
/-- The premises of `C100_build` are met by a build from a file with `/files/{len}`: the bytes it writes answer every path that
does not begin with `/files/` as the file says. -/
theorem C100_built {path : Bytes} (hp : ¬ bytesOf c!"files/" <+: stripSlash path ++ [slash]) (verb : Bytes) :
    ∃ o : Outcome W, callFile W (headerToks (conf files).headers) ((demoBuilder c!"files.routes").build filesMachine).written path verb = Outcome.inRust o ∧
      o.Near path (referenceRouter W files path verb) := by
  obtain ⟨contents, c, h1, h2, hw, h3⟩ := C100_build filesMachine filesMachine_sound (b := demoBuilder c!"files.routes") rfl files_built
  have he : contents = filesText := by
    have : filesMachine.read ((demoBuilder c!"files.routes").inputPath filesMachine c!"files.routes") = some filesText := by
      decide +kernel
    rw [this] at h1; cases h1; rfl
  subst he
  have hc : c = conf files := C46_unambiguous _ h2 ((C46_grammar _ _ _).1 ⟨_, files_parsed⟩)
  subst hc
  have hacc : AcceptedFile (headerToks (conf files).headers) ((demoBuilder c!"files.routes").build filesMachine).written := by
    obtain ⟨-, m, b, e⟩ := files_accepted
    exact ⟨_, m, b, by rw [hw]; exact fromUtf8_utf8 _, e⟩
  obtain ⟨ht, hf⟩ := files_typed
  have := (h3 (demo_headers files) hacc ownTypes ht W path verb).2
  rw [show (conf files).routes = files from rfl, hf] at this
  exact this fun h => hp (files_passes h)

end Wayfinder
