import Verif.Model.Build
import Verif.Props.Errors
import Verif.Props.Generation
import Verif.Proofs.Utf8
/-!
# C37–C39: the build helper
-/

namespace Wayfinder

/-- The effect opens, truncates or writes the target. -/
def Event.Touches : Event → Prop
  | .create _ => True
  | .write _ => True
  | _ => False

/-- All bytes written to the target. -/
def Run.written (r : Run) : Bytes := r.events.flatMap fun e => match e with | .write b => b | _ => []

/-- The machine drains hash maps in some order and sorts the results with a correct algorithm. -/
def Machine.Sound (w : Machine) : Prop := ∀ m, Finalizes m c!"routes" (w.finalize m)

/-- The path of the input file. -/
def Builder.inputPath (w : Machine) (b : Builder) (name : Str) : Str :=
  (b.sourceDir.map fun d => w.join d name).getD name

/-- The path of the output file. -/
def Builder.outputPath (w : Machine) (b : Builder) (name : Str) : Str :=
  (b.targetDir.map fun d => w.join d name).getD name

/-- The configuration to be built, if it can be had: given directly, or read from a file that exists and
parses. -/
inductive Builder.Loads (w : Machine) (b : Builder) : RouteConfig → Prop where
  | config {c : RouteConfig} : b.source = some (.config c) → b.Loads w c
  | file {name text : Str} {c : RouteConfig} : b.source = some (.file name) →
      w.read (b.inputPath w name) = some text → routeConfig w.cfg text = .ok [] c → b.Loads w c

theorem Run.after_ending (es : List Event) (r : Run) : (r.after es).ending = r.ending := rfl
theorem Run.after_events (es : List Event) (r : Run) : (r.after es).events = es ++ r.events := rfl

theorem Run.written_after (es : List Event) (r : Run) (h : ∀ e ∈ es, ∀ b, e ≠ .write b) :
    (r.after es).written = r.written := by
  unfold Run.written Run.after
  rw [List.flatMap_append]
  have : es.flatMap (fun e => match e with | .write b => b | _ => []) = [] := by
    rw [List.flatMap_eq_nil_iff]
    intro e he
    cases e with
    | write b => exact absurd rfl (h _ he b)
    | _ => rfl
  rw [this, List.nil_append]

/-- What happens before the target is opened. -/
def Builder.preamble (w : Machine) (b : Builder) : List Event :=
  match b.source with
  | some (.file name) => if b.useCargo then [.rerun (b.inputPath w name)] else []
  | _ => []

theorem preamble_untouched (w : Machine) (b : Builder) : ∀ e ∈ b.preamble w, ¬ e.Touches := by
  unfold Builder.preamble
  intro e he
  split at he
  · split at he
    · simp at he; subst he; exact id
    · simp at he
  · simp at he

/-- The two cases of a build. -/
theorem build_cases (w : Machine) (b : Builder) :
    (∃ c t, b.Loads w c ∧ b.target = some t ∧ b.build w = (writeTarget w b t c).after (b.preamble w)) ∨
    ((b.target = none ∨ ∀ c, ¬ b.Loads w c) ∧ (b.build w).ending = .exit101 ∧ ∀ e ∈ (b.build w).events, ¬ e.Touches) := by
  have hfail : ∀ m, (failWith m).ending = .exit101 ∧ ∀ e ∈ (failWith m).events, ¬ e.Touches := by
    intro m
    refine ⟨rfl, fun e he => ?_⟩
    simp [failWith] at he
    subst he; exact id
  cases hs : b.source with
  | none =>
    refine .inr ⟨.inr fun c hc => ?_, ?_⟩
    · cases hc <;> rename_i h <;> simp_all
    · unfold Builder.build; rw [hs]; exact hfail _
  | some s =>
    cases ht : b.target with
    | none =>
      refine .inr ⟨.inl rfl, ?_⟩
      unfold Builder.build; rw [hs, ht]; exact hfail _
    | some t =>
      cases s with
      | config c =>
        refine .inl ⟨c, t, .config hs, rfl, ?_⟩
        unfold Builder.build Builder.preamble
        rw [hs, ht]
        rfl
      | file name =>
        have hpath : resolve w b.sourceDir name = b.inputPath w name := by
          unfold Builder.inputPath resolve
          cases b.sourceDir <;> rfl
        have hpre : b.preamble w = if b.useCargo then [.rerun (b.inputPath w name)] else [] := by
          unfold Builder.preamble; rw [hs]
        have hun := preamble_untouched w b
        have hbuild : b.build w = Run.after (b.preamble w) (buildFile w b t (b.inputPath w name)) := by
          unfold Builder.build
          rw [hs, ht, hpre, ← hpath]
        have hload : ∀ c, b.Loads w c → ∃ text, w.read (b.inputPath w name) = some text ∧
            routeConfig w.cfg text = .ok [] c := by
          intro c hc
          cases hc with
          | config h => rw [hs] at h; cases h
          | file h h1 h2 => rw [hs] at h; cases h; exact ⟨_, h1, h2⟩
        cases hr : w.read (b.inputPath w name) with
        | none =>
          refine .inr ⟨.inr fun c hc => ?_, ?_⟩
          · obtain ⟨_, h, _⟩ := hload c hc; rw [hr] at h; cases h
          · rw [hbuild, buildFile, hr]
            refine ⟨rfl, fun e he => ?_⟩
            rcases List.mem_append.1 he with he | he
            · exact hun e he
            · exact (hfail _).2 e he
        | some contents =>
          have bad : ∀ result, routeConfig w.cfg contents = result → (∀ r c, result ≠ .ok r c) →
              b.build w = Run.after (b.preamble w) (reject w (b.inputPath w name) contents result) →
              (b.target = none ∨ ∀ c, ¬ b.Loads w c) ∧ (b.build w).ending = .exit101 ∧
                ∀ e ∈ (b.build w).events, ¬ e.Touches := by
            intro result hres hno hb
            refine ⟨.inr fun c hc => ?_, ?_⟩
            · obtain ⟨text, h1, h2⟩ := hload c hc
              rw [hr] at h1; cases h1
              rw [hres] at h2
              exact hno _ _ h2
            · obtain ⟨out, hout⟩ := C31_no_panic w.cfg w.dbg contents []
              rw [hres] at hout
              rw [hb, reject, hout]
              refine ⟨rfl, fun e he => ?_⟩
              rcases List.mem_append.1 he with he | he
              · exact hun e he
              · simp [Run.after] at he
                rcases he with rfl | rfl <;> exact id
          cases hres : routeConfig w.cfg contents with
          | ok rest c =>
            have := C30_consumes w.cfg hres
            subst this
            exact .inl ⟨c, t, .file hs hr hres, rfl, by rw [hbuild, buildFile, hr]; simp only [hres]⟩
          | error d =>
            have := bad _ hres (fun _ _ h => by cases h) (by rw [hbuild, buildFile, hr]; simp only [hres])
            exact .inr ⟨ht ▸ this.1, this.2⟩
          | failure d =>
            have := bad _ hres (fun _ _ h => by cases h) (by rw [hbuild, buildFile, hr]; simp only [hres])
            exact .inr ⟨ht ▸ this.1, this.2⟩

theorem loads_unique {w : Machine} {b : Builder} {c c' : RouteConfig} (h1 : b.Loads w c) (h1' : b.Loads w c') :
    c' = c := by
  cases h1' with
  | config hs =>
    cases h1 with
    | config hs' => rw [hs] at hs'; cases hs'; rfl
    | file hs' => rw [hs] at hs'; cases hs'
  | file hs ha hb =>
    cases h1 with
    | config hs' => rw [hs] at hs'; cases hs'
    | file hs' ha' hb' =>
      rw [hs] at hs'; cases hs'
      rw [ha] at ha'; cases ha'
      rw [hb] at hb'; cases hb'; rfl

/-! ## C37 -/

/-- **C37, failures.** If the source or the target is not configured, the input file cannot be read or
does not parse, the process exits with status 101 and neither creates, truncates nor writes the
output. -/
theorem C37_untouched (w : Machine) (b : Builder) (h : b.target = none ∨ ∀ c, ¬ b.Loads w c) :
    (b.build w).ending = .exit101 ∧ ∀ e ∈ (b.build w).events, ¬ e.Touches := by
  rcases build_cases w b with ⟨c, t, h1, h2, _⟩ | ⟨_, h1⟩
  · rcases h with h | h
    · rw [h2] at h; cases h
    · exact absurd h1 (h c)
  · exact h1

theorem codegenIn_eq {w : Machine} (hw : w.Sound) (c : RouteConfig) : codegenIn w c = codegen c := by
  unfold codegenIn
  cases h : flattenModules c.routes with
  | none => simp [codegen, modulesRoot, h]
  | some m => exact C22_deterministic c h (hw m)

/-- The bytes that a target with the capacity of the machine takes. -/
def Machine.fits (w : Machine) (bytes : Bytes) : Prop := ∀ k, w.capacity = some k → bytes.length ≤ k

theorem writeCode_spec (w : Machine) (o : Out) :
    ((writeCode w o).ending = .returned ↔ o.fail = none ∧ w.fits (encode o.text)) ∧
    ((writeCode w o).written = match w.capacity with | none => encode o.text | some k => (encode o.text).take k) := by
  have hw : ∀ (r : Run) (bs : Bytes), (r.after [.write bs]).written = bs ++ r.written := fun r bs => by
    simp [Run.written, Run.after]
  have hf : ∀ m, (failWith m).written = [] := fun m => rfl
  have hfin : (endCode o.fail).written = [] := by
    cases o.fail with
    | none => rfl
    | some f => cases f <;> rfl
  have hend : (endCode o.fail).ending = .returned ↔ o.fail = none := by
    cases o.fail with
    | none => simp [endCode]
    | some f => cases f <;> simp [failWith, endCode]
  unfold writeCode
  cases hc : w.capacity with
  | none =>
    refine ⟨?_, ?_⟩
    · rw [Run.after_ending, hend]
      simp [Machine.fits, hc]
    · simp only [hw, hfin, List.append_nil]
  | some k =>
    simp only
    split
    · rename_i hle
      refine ⟨?_, ?_⟩
      · rw [Run.after_ending, hend]
        simp [Machine.fits, hc, hle]
      · rw [hw, hfin, List.append_nil, List.take_of_length_le hle]
    · rename_i hle
      refine ⟨?_, ?_⟩
      · rw [Run.after_ending]
        simp [Machine.fits, hc, hle, failWith]
      · rw [hw, hf, List.append_nil]

/-- The target can be opened. -/
def Builder.Opens (w : Machine) (b : Builder) : Prop :=
  b.target = some .stdout ∨ ∃ name, b.target = some (.file name) ∧ w.create (b.outputPath w name) = true

theorem writeTarget_spec (w : Machine) (b : Builder) (t : Target) (c : RouteConfig) (ht : b.target = some t) :
    (b.Opens w ∧ (writeTarget w b t c).ending = (writeCode w (codegenIn w c)).ending ∧
      (writeTarget w b t c).written = (writeCode w (codegenIn w c)).written) ∨
    (¬ b.Opens w ∧ (writeTarget w b t c).ending = .exit101 ∧ (writeTarget w b t c).written = [] ∧
      ∀ e ∈ (writeTarget w b t c).events, ¬ e.Touches) := by
  cases t with
  | stdout => exact .inl ⟨.inl ht, rfl, rfl⟩
  | file name =>
    have hpath : resolve w b.targetDir name = b.outputPath w name := by
      unfold Builder.outputPath resolve
      cases b.targetDir <;> rfl
    unfold writeTarget
    simp only [hpath]
    split
    · rename_i h
      exact .inl ⟨.inr ⟨name, ht, h⟩, rfl, Run.written_after _ _ (by simp)⟩
    · rename_i h
      refine .inr ⟨?_, rfl, rfl, fun e he => ?_⟩
      · rintro (h' | ⟨n, h1, h2⟩)
        · rw [ht] at h'; cases h'
        · rw [ht] at h1; cases h1; exact h h2
      · simp [failWith] at he
        subst he; exact id

/-- **C37, success.** `build` returns exactly if the configuration can be loaded and the target opened,
no two of its siblings or actions clash, it is not empty, and the target takes the complete generated
text; then all of it, and nothing else, has been written. -/
theorem C37_success (w : Machine) (hw : w.Sound) (b : Builder) :
    (b.build w).ending = .returned ↔ ∃ c, b.Loads w c ∧ b.Opens w ∧
      (DistinctSiblings c.routes ∧ DistinctActions c.routes ∧ c.routes ≠ .mk [] [] []) ∧
      w.fits (encode (codegen c).text) ∧ (b.build w).written = encode (codegen c).text := by
  constructor
  · intro h
    rcases build_cases w b with ⟨c, t, h1, h2, h3⟩ | ⟨_, h1, _⟩
    · rw [h3, Run.after_ending] at h
      have hwr : (b.build w).written = (writeTarget w b t c).written := by
        rw [h3]
        exact Run.written_after _ _ fun e he bs hb => preamble_untouched w b e he (hb ▸ trivial)
      rcases writeTarget_spec w b t c h2 with ⟨ho, h4, h5⟩ | ⟨_, h4, _⟩
      · rw [h4, codegenIn_eq hw] at h
        obtain ⟨h6, h7⟩ := (writeCode_spec w (codegen c)).1.1 h
        refine ⟨c, h1, ho, (C20_exact c).1 h6, h7, ?_⟩
        rw [hwr, h5, codegenIn_eq hw, (writeCode_spec w (codegen c)).2]
        cases hc : w.capacity with
        | none => rfl
        | some k => exact List.take_of_length_le (h7 k hc)
      · rw [h4] at h; cases h
    · rw [h1] at h; cases h
  · rintro ⟨c, h1, h2, h3, h4, _⟩
    rcases build_cases w b with ⟨c', t, h1', h2', h3'⟩ | ⟨hno, _⟩
    · have hcc : c' = c := loads_unique h1 h1'
      subst hcc
      rw [h3', Run.after_ending]
      rcases writeTarget_spec w b t c' h2' with ⟨_, h5, _⟩ | ⟨h5, _⟩
      · rw [h5, codegenIn_eq hw]
        exact (writeCode_spec w (codegen c')).1.2 ⟨(C20_exact c').2 h3, h4⟩
      · exact absurd h2 h5
    · rcases hno with hno | hno
      · rcases h2 with h2 | ⟨n, h2, _⟩ <;> rw [hno] at h2 <;> cases h2
      · exact absurd h1 (hno c)

/-- **C37, what is not validated first.** A configuration with clashes is found out only after the output
file has been truncated and partly rewritten: then the build panics with the file left incomplete. -/
theorem C37_late (w : Machine) (hw : w.Sound) (b : Builder) {c : RouteConfig} {name : Str}
    (hl : b.Loads w c) (ht : b.target = some (.file name)) (ho : w.create (b.outputPath w name) = true)
    (hbad : ¬ (DistinctSiblings c.routes ∧ DistinctActions c.routes ∧ c.routes ≠ .mk [] [] [])) :
    Event.create (b.outputPath w name) ∈ (b.build w).events ∧ (b.build w).ending ≠ .returned := by
  constructor
  · rcases build_cases w b with ⟨c', t, h1, h2, h3⟩ | ⟨hno, _⟩
    · rw [ht] at h2; cases h2
      have hpath : resolve w b.targetDir name = b.outputPath w name := by
        unfold Builder.outputPath resolve
        cases b.targetDir <;> rfl
      rw [h3, Run.after_events]
      refine List.mem_append_right _ ?_
      unfold writeTarget
      simp only [hpath, ho, if_true, Run.after_events]
      exact List.mem_append_left _ (List.mem_cons_self ..)
    · rcases hno with hno | hno
      · rw [ht] at hno; cases hno
      · exact absurd hl (hno c)
  · intro h
    obtain ⟨c', h1, _, h2, _⟩ := (C37_success w hw b).1 h
    rw [loads_unique hl h1] at h2
    exact hbad h2

/-! ## C38 -/

/-- What is written. -/
theorem build_written (w : Machine) (hw : w.Sound) (b : Builder) :
    (∃ c, b.Loads w c ∧ b.Opens w ∧ (b.build w).written =
      match w.capacity with
      | none => encode (codegen c).text
      | some k => (encode (codegen c).text).take k) ∨
    ((¬ b.Opens w ∨ ∀ c, ¬ b.Loads w c) ∧ (b.build w).written = []) := by
  have hnil : ∀ r : Run, (∀ e ∈ r.events, ¬ e.Touches) → r.written = [] := by
    intro r h
    unfold Run.written
    rw [List.flatMap_eq_nil_iff]
    intro e he
    cases e with
    | write b => exact absurd trivial (h _ he)
    | _ => rfl
  rcases build_cases w b with ⟨c, t, h1, h2, h3⟩ | ⟨hno, _, h⟩
  · have hwr : (b.build w).written = (writeTarget w b t c).written := by
      rw [h3]
      exact Run.written_after _ _ fun e he bs hb => preamble_untouched w b e he (hb ▸ trivial)
    rcases writeTarget_spec w b t c h2 with ⟨ho, _, h5⟩ | ⟨ho, _, h5, _⟩
    · exact .inl ⟨c, h1, ho, by rw [hwr, h5, codegenIn_eq hw, (writeCode_spec w (codegen c)).2]⟩
    · exact .inr ⟨.inl ho, by rw [hwr, h5]⟩
  · refine .inr ⟨?_, hnil _ h⟩
    rcases hno with hno | hno
    · refine .inl ?_
      rintro (h2 | ⟨n, h2, _⟩) <;> rw [hno] at h2 <;> cases h2
    · exact .inr hno

/-- The same machine without write failures and with another order of hash maps. -/
def Machine.rerun (w : Machine) (f : Module → FlattenedModule) : Machine :=
  { w with capacity := none, finalize := f }

theorem loads_rerun {w : Machine} {f : Module → FlattenedModule} {b : Builder} {c : RouteConfig} :
    b.Loads (w.rerun f) c ↔ b.Loads w c := by
  constructor
  · intro h
    cases h with
    | config h => exact .config h
    | file h1 h2 h3 => exact .file h1 h2 h3
  · intro h
    cases h with
    | config h => exact .config h
    | file h1 h2 h3 => exact .file h1 h2 h3

/-- **C38.** Whatever the order of hash maps and wherever writing stops, what has been written is a
prefix of what a fault-free run writes, with any order of hash maps. -/
theorem C38_prefix (w : Machine) (hw : w.Sound) (f : Module → FlattenedModule)
    (hf : ∀ m, Finalizes m c!"routes" (f m)) (b : Builder) :
    (b.build w).written <+: (b.build (w.rerun f)).written := by
  rcases build_written w hw b with ⟨c, h1, h2, h3⟩ | ⟨_, h3⟩
  · rcases build_written (w.rerun f) hf b with ⟨c', h1', _, h3'⟩ | ⟨hno, _⟩
    · have := loads_unique h1 (loads_rerun.1 h1')
      subst this
      rw [h3, h3']
      cases w.capacity with
      | none => exact List.prefix_refl _
      | some k => exact List.take_prefix _ _
    · rcases hno with hno | hno
      · exact absurd h2 hno
      · exact absurd (loads_rerun.2 h1) (hno c)
  · rw [h3]; exact List.nil_prefix

/-- **C38, completeness.** The output is complete or the build fails: if `build` returns, what has been
written is all that a fault-free run writes, and that run returns as well. -/
theorem C38_complete (w : Machine) (hw : w.Sound) (f : Module → FlattenedModule)
    (hf : ∀ m, Finalizes m c!"routes" (f m)) (b : Builder) (h : (b.build w).ending = .returned) :
    (b.build w).written = (b.build (w.rerun f)).written ∧ (b.build (w.rerun f)).ending = .returned := by
  obtain ⟨c, h1, h2, h3, h4, h5⟩ := (C37_success w hw b).1 h
  have hwr : (b.build (w.rerun f)).written = encode (codegen c).text := by
    rcases build_written (w.rerun f) hf b with ⟨c', h1', _, h3'⟩ | ⟨hno, _⟩
    · have := loads_unique h1 (loads_rerun.1 h1')
      subst this
      exact h3'
    · rcases hno with hno | hno
      · exact absurd h2 hno
      · exact absurd (loads_rerun.2 h1) (hno c)
  exact ⟨by rw [h5, hwr], (C37_success (w.rerun f) hf b).2
    ⟨c, loads_rerun.2 h1, h2, h3, (fun k hk => by cases hk), hwr⟩⟩

/-! ## C39 -/

/-- Calls of setters. -/
inductive Setting where
  | inputFile (path : Str)
  | inputConfig (c : RouteConfig)
  | outputFile (path : Str)
  | outputStdout

/-- Perform a call. -/
def Setting.apply (b : Builder) : Setting → Builder
  | .inputFile p => b.inputFile p
  | .inputConfig c => b.inputConfig c
  | .outputFile p => b.outputFile p
  | .outputStdout => b.outputStdout

/-- The call is an `input_…` call. -/
def Setting.isInput : Setting → Bool
  | .inputFile _ => true
  | .inputConfig _ => true
  | _ => false

/-- The last call that satisfies a condition. -/
def lastWith (f : Setting → Bool) (l : List Setting) : Option Setting := (l.filter f).getLast?

/-- The source that a call sets. -/
def Setting.source : Setting → Option Source
  | .inputFile p => some (.file p)
  | .inputConfig c => some (.config c)
  | _ => none

/-- The target that a call sets. -/
def Setting.target : Setting → Option Target
  | .outputFile p => some (.file p)
  | .outputStdout => some .stdout
  | _ => none

theorem lastWith_cons (f : Setting → Bool) (s : Setting) (l : List Setting) :
    lastWith f (s :: l) = if f s then some ((lastWith f l).getD s) else lastWith f l := by
  unfold lastWith
  rw [List.filter_cons]
  split
  · rw [List.getLast?_cons]
  · rfl

theorem settings_eq : ∀ (l : List Setting) (b : Builder), l.foldl Setting.apply b =
    { b with
      source := match lastWith Setting.isInput l with | some s => s.source | none => b.source
      target := match lastWith (fun s => !s.isInput) l with | some s => s.target | none => b.target }
  | [], b => rfl
  | s :: l, b => by
    rw [List.foldl_cons, settings_eq l, lastWith_cons, lastWith_cons]
    cases s <;> simp [Setting.isInput, Setting.apply, Builder.inputFile, Builder.inputConfig,
      Builder.outputFile, Builder.outputStdout] <;>
      (split <;> simp_all [Setting.source, Setting.target])

/-- **C39.** Two sequences of calls with the same last `input_…` call and the same last `output_…` call
give the same builder, hence the same build on every machine. -/
theorem C39_last (b : Builder) (l l' : List Setting)
    (hi : lastWith Setting.isInput l = lastWith Setting.isInput l')
    (ho : lastWith (fun s => !s.isInput) l = lastWith (fun s => !s.isInput) l') (w : Machine) :
    l.foldl Setting.apply b = l'.foldl Setting.apply b ∧
    (l.foldl Setting.apply b).build w = (l'.foldl Setting.apply b).build w := by
  have h : l.foldl Setting.apply b = l'.foldl Setting.apply b := by
    rw [settings_eq, settings_eq, hi, ho]
  exact ⟨h, by rw [h]⟩

/-- **C39, effect.** The last setting is the one that counts: source and target of the builder are those
of the last calls, and the other fields are untouched. -/
theorem C39_effect (b : Builder) (l : List Setting) :
    (∀ s, lastWith Setting.isInput l = some s → (l.foldl Setting.apply b).source = s.source) ∧
    (∀ s, lastWith (fun s => !s.isInput) l = some s → (l.foldl Setting.apply b).target = s.target) ∧
    (lastWith Setting.isInput l = none → (l.foldl Setting.apply b).source = b.source) ∧
    (lastWith (fun s => !s.isInput) l = none → (l.foldl Setting.apply b).target = b.target) ∧
    (l.foldl Setting.apply b).useCargo = b.useCargo ∧ (l.foldl Setting.apply b).sourceDir = b.sourceDir ∧
    (l.foldl Setting.apply b).targetDir = b.targetDir := by
  rw [settings_eq]
  refine ⟨fun s h => by simp only [h], fun s h => by simp only [h], fun h => by simp only [h],
    fun h => by simp only [h], rfl, rfl, rfl⟩

/-! ## C41: starting points -/

/-- **C41, Cargo.** `from_env` gives a builder exactly if both variables are set to valid texts; built
with it, relative names are resolved in the two directories and Cargo is told about the input file. -/
theorem C41_from_env (m o : EnvVar) :
    (∃ s t, m = .value s ∧ o = .value t ∧ ∃ b, Builder.fromEnv m o = some b ∧
      ∀ (w : Machine) (i p : Str), ((b.inputFile i).outputFile p).inputPath w i = w.join s i ∧
        ((b.inputFile i).outputFile p).outputPath w p = w.join t p ∧
        (((b.inputFile i).outputFile p).build w).events.head? = some (.rerun (w.join s i))) ∨
    (Builder.fromEnv m o = none ∧ ((∀ s, m ≠ .value s) ∨ ∀ t, o ≠ .value t)) := by
  cases m with
  | value s =>
    cases o with
    | value t => exact .inl ⟨s, t, rfl, rfl, _, rfl, fun w i p => ⟨rfl, rfl, rfl⟩⟩
    | _ => exact .inr ⟨rfl, .inr (by simp)⟩
  | _ => exact .inr ⟨rfl, .inl (by simp)⟩

/-- **C41, command.** The command writes the code generated from its first argument to standard output and nothing else (no line
for Cargo), never creates a file, and ends normally exactly if that file could be read and parsed, no two siblings or
actions clash, the configuration is not empty, and all of the generated text could be written. -/
theorem C41_command (w : Machine) (hw : w.Sound) (exe path : Str) (more : List Str) :
    (∀ p, Event.create p ∉ (cmdMain w (exe :: path :: more)).events) ∧
    (∀ p, Event.rerun p ∉ (cmdMain w (exe :: path :: more)).events) ∧
    ((cmdMain w (exe :: path :: more)).ending = .returned ↔
      ∃ text c, w.read path = some text ∧ routeConfig w.cfg text = .ok [] c ∧
        (DistinctSiblings c.routes ∧ DistinctActions c.routes ∧ c.routes ≠ .mk [] [] []) ∧
        w.fits (encode (codegen c).text) ∧
        (cmdMain w (exe :: path :: more)).written = encode (codegen c).text) := by
  constructor
  · intro p hp
    change Event.create p ∈ (((Builder.new.inputFile path).outputStdout).build w).events at hp
    rcases build_cases w ((Builder.new.inputFile path).outputStdout) with ⟨c, t, _, h2, h3⟩ | ⟨_, _, h⟩
    · cases h2
      rw [h3, Run.after_events] at hp
      rcases List.mem_append.1 hp with hp | hp
      · exact preamble_untouched w _ _ hp trivial
      · have hend : ∀ f, Event.create p ∉ (endCode f).events := by
          intro f
          cases f with
          | none => simp [endCode]
          | some f => cases f <;> simp [endCode, failWith]
        simp only [writeTarget, writeCode] at hp
        split at hp
        · simp [Run.after_events, hend] at hp
        · split at hp
          · simp [Run.after_events, hend] at hp
          · simp [Run.after_events, failWith] at hp
    · exact h _ hp trivial
  · refine ⟨?_, ?_⟩
    · intro p hp
      have hend : ∀ f, Event.rerun p ∉ (endCode f).events := by
        intro f
        cases f with
        | none => simp [endCode]
        | some f => cases f <;> simp [endCode, failWith]
      change Event.rerun p ∈ (Run.after [] (buildFile w _ .stdout path)).events at hp
      simp only [Run.after_events, List.nil_append, buildFile] at hp
      split at hp
      · simp [failWith] at hp
      · split at hp
        · simp only [writeTarget, writeCode] at hp
          split at hp
          · simp [Run.after_events, hend] at hp
          · split at hp
            · simp [Run.after_events, hend] at hp
            · simp [Run.after_events, failWith] at hp
        · unfold reject at hp
          rw [Run.after_events] at hp
          split at hp <;> simp at hp
    refine (C37_success w hw ((Builder.new.inputFile path).outputStdout)).trans ?_
    constructor
    · rintro ⟨c, h1, _, h3, h4, h5⟩
      cases h1 with
      | config h => cases h
      | file h1 h2 h3' => cases h1; exact ⟨_, c, h2, h3', h3, h4, h5⟩
    · rintro ⟨text, c, h1, h2, h3, h4, h5⟩
      exact ⟨c, .file rfl h1 h2, .inl rfl, h3, h4, h5⟩

/-- Without an argument the command reports its usage and still ends normally. -/
theorem C41_usage (w : Machine) (exe : Str) : (cmdMain w [exe]).ending = .returned ∧
    (cmdMain w [exe]).written = [] ∧ ∃ msg, (cmdMain w [exe]).events = [.stderr msg] :=
  ⟨rfl, rfl, _, rfl⟩

/-! ## Examples -/

/-- A machine with two files; `bad.routes` has two resources of the same name in one module. -/
def demoMachine (capacity : Option Nat) : Machine where
  join d n := d ++ '/' :: n
  read p :=
    if p = c!"in/app.routes" then some c!"/\n  GET Home::Index\n"
    else if p = c!"in/bad.routes" then some c!"/\n  GET Home::Index\n  POST Home::Index\n"
    else if p = c!"in/wrong.routes" then some c!"/\n  GET Home::\n"
    else none
  create p := p = c!"out/routes.rs"
  capacity := capacity
  cfg := asciiOnly false
  dbg _ := []
  finalize m := m.finalize c!"routes"

theorem demoMachine_sound (k : Option Nat) : (demoMachine k).Sound := fun m => finalize_finalizes m _

/-- A builder as in a build script. -/
def demoBuilder (input : Str) : Builder :=
  ((Builder.mk true (some c!"in") none (some c!"out") none).inputFile input).outputFile c!"routes.rs"

example : ((demoBuilder c!"app.routes").build (demoMachine none)).ending = .returned ∧
    500 < ((demoBuilder c!"app.routes").build (demoMachine none)).written.length := by decide +kernel

example : ((demoBuilder c!"app.routes").build (demoMachine (some 100))).ending = .exit101 ∧
    ((demoBuilder c!"app.routes").build (demoMachine (some 100))).written.length = 100 := by decide +kernel

example : ((demoBuilder c!"bad.routes").build (demoMachine none)).ending = .panicked ∧
    Event.create c!"out/routes.rs" ∈ ((demoBuilder c!"bad.routes").build (demoMachine none)).events := by
  decide +kernel

example : ((demoBuilder c!"wrong.routes").build (demoMachine none)).ending = .exit101 ∧
    Event.create c!"out/routes.rs" ∉ ((demoBuilder c!"wrong.routes").build (demoMachine none)).events := by
  decide +kernel

example : ((demoBuilder c!"none.routes").build (demoMachine none)).ending = .exit101 := by decide +kernel

example : (cmdMain (demoMachine none) [c!"wayfinder", c!"in/app.routes"]).ending = .returned ∧
    500 < (cmdMain (demoMachine none) [c!"wayfinder", c!"in/app.routes"]).written.length := by decide +kernel

/-- The hypotheses of `C39_last`. -/
example : lastWith Setting.isInput [.inputFile c!"a", .outputStdout, .inputFile c!"b"] =
      lastWith Setting.isInput [.inputFile c!"b", .outputFile c!"x", .outputStdout] ∧
    lastWith (fun s => !s.isInput) [.inputFile c!"a", .outputStdout, .inputFile c!"b"] =
      lastWith (fun s => !s.isInput) [.inputFile c!"b", .outputFile c!"x", .outputStdout] := ⟨rfl, rfl⟩

end Wayfinder
