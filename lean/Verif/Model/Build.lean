import Verif.Model.Errors
import Verif.Model.Parse
/-!
# Model of `/repo/wayfinder/src/build/mod.rs` and `/repo/wayfinder-cmd/src/main.rs`

Paths are opaque texts, joined by a function of the machine.  A run is the list of its effects in order
and how it ends.  The sink of the generated code accepts a number of bytes and then fails, or never
fails (`Machine.capacity`); a process killed while writing corresponds to a capacity as well.  Writes to
standard error, and the line printed for Cargo, are modelled as always succeeding.  Standard output is
modelled without its line buffer: the generated text ends with a newline, which flushes it.  Messages of `fail!` are
modelled without the text of the error at their end (`: {}`) and without the newline of `eprintln!`.
-/

namespace Wayfinder

/-- `build/mod.rs:49-52` `Source`. -/
inductive Source where
  | file (path : Str)
  | config (c : RouteConfig)

/-- `build/mod.rs:54-57` `Target`. -/
inductive Target where
  | file (path : Str)
  | stdout

/-- `build/mod.rs:69-75` `Builder`. -/
structure Builder where
  useCargo : Bool
  sourceDir : Option Str
  source : Option Source
  targetDir : Option Str
  target : Option Target

/-- `build/mod.rs:79-87` `Builder::new`. -/
def Builder.new : Builder := ⟨false, none, none, none, none⟩

/-- The result of `env::var`. -/
inductive EnvVar where
  | notPresent
  | notUnicode
  | value (s : Str)

/-- `build/mod.rs:90-109` `Builder::from_env`; `none` if the process exits with status 101. -/
def Builder.fromEnv (manifestDir outDir : EnvVar) : Option Builder :=
  match manifestDir with
  | .value s =>
    match outDir with
    | .value t => some ⟨true, some s, none, some t, none⟩
    | _ => none
  | _ => none

/-- `build/mod.rs:114-117` `input_file`. -/
def Builder.inputFile (b : Builder) (path : Str) : Builder := { b with source := some (.file path) }

/-- `build/mod.rs:120-123` `input_config`. -/
def Builder.inputConfig (b : Builder) (c : RouteConfig) : Builder := { b with source := some (.config c) }

/-- `build/mod.rs:126-129` `output_file`. -/
def Builder.outputFile (b : Builder) (path : Str) : Builder := { b with target := some (.file path) }

/-- `build/mod.rs:132-135` `output_stdout`. -/
def Builder.outputStdout (b : Builder) : Builder := { b with target := some .stdout }

/-- What a build depends on besides the builder. -/
structure Machine where
  /-- `PathBuf::join` -/
  join : Str → Str → Str
  /-- `read_to_string`; `none` for any failure, invalid UTF-8 included -/
  read : Str → Option Str
  /-- whether `File::create` succeeds -/
  create : Str → Bool
  /-- how many bytes of generated code can be written -/
  capacity : Option Nat
  /-- readings of the parser, see `ParseCfg` -/
  cfg : ParseCfg
  /-- `Debug` form of error contexts -/
  dbg : Ctx → Str
  /-- the order in which the hash maps are drained -/
  finalize : Module → FlattenedModule

/-- Effects. -/
inductive Event where
  /-- `println!("cargo:rerun-if-changed=…")` -/
  | rerun (path : Str)
  /-- text on standard error -/
  | stderr (msg : Str)
  /-- the file is created, or truncated if it exists -/
  | create (path : Str)
  /-- bytes written to the target -/
  | write (bytes : Bytes)
deriving DecidableEq

/-- Ways to end: `build` returns, the process exits with status 101, or a panic. -/
inductive Ending where
  | returned
  | exit101
  | panicked
deriving DecidableEq

/-- A run. -/
structure Run where
  events : List Event
  ending : Ending
deriving DecidableEq

/-- More effects in front. -/
def Run.after (es : List Event) (r : Run) : Run := ⟨es ++ r.events, r.ending⟩

/-- `build/mod.rs:16-26` `fail!` with a message. -/
def failWith (msg : Str) : Run := ⟨[.stderr msg], .exit101⟩

/-- UTF-8 encoding of a text. -/
def encode (s : Str) : Bytes := s.flatMap String.utf8EncodeChar

/-- `gen.rs:280-472` `codegen`, draining hash maps in the order of the machine. -/
def codegenIn (w : Machine) (c : RouteConfig) : Out :=
  match flattenModules c.routes with
  | none => ⟨[], some .duplicateAction⟩
  | some m => codegenFrom (w.finalize m) c

/-- `build/mod.rs:195-200`: what follows the writing of all text that `codegen` produces. -/
def endCode : Option GenFail → Run
  | none => ⟨[], .returned⟩
  | some .invalidInput => failWith c!"Error generating code"
  | some _ => ⟨[], .panicked⟩

/-- `build/mod.rs:195-200`: write the generated code. -/
def writeCode (w : Machine) (o : Out) : Run :=
  match w.capacity with
  | none => (endCode o.fail).after [.write (encode o.text)]
  | some k =>
    if (encode o.text).length ≤ k then (endCode o.fail).after [.write (encode o.text)]
    else (failWith c!"Error generating code").after [.write ((encode o.text).take k)]

/-- `build/mod.rs:156-159`, `183-186`: a file name relative to a directory, if one is set. -/
def resolve (w : Machine) (dir : Option Str) (name : Str) : Str :=
  match dir with
  | none => name
  | some dir => w.join dir name

/-- `build/mod.rs:180-200`: open the target and write. -/
def writeTarget (w : Machine) (b : Builder) (target : Target) (c : RouteConfig) : Run :=
  match target with
  | .stdout => writeCode w (codegenIn w c)
  | .file name =>
    if w.create (resolve w b.targetDir name) then
      (writeCode w (codegenIn w c)).after [.create (resolve w b.targetDir name)]
    else failWith (c!"Unable to create output file " ++ resolve w b.targetDir name)

/-- `build/mod.rs:171-175`: report a file that does not parse. -/
def reject (w : Machine) (path contents : Str) (result : Res RouteConfig) : Run :=
  Run.after [.stderr (c!"Unable to parse route config file " ++ path ++ c!":\n")] <|
    match showErrors w.dbg contents result [] with
    | none => ⟨[], .panicked⟩
    | some out => ⟨[.stderr out], .exit101⟩

/-- `build/mod.rs:155-200`, input from a file. -/
def buildFile (w : Machine) (b : Builder) (target : Target) (path : Str) : Run :=
  match w.read path with
  | none => failWith (c!"Unable to load file " ++ path)
  | some contents =>
    match routeConfig w.cfg contents with
    | .ok _ c => writeTarget w b target c
    | result => reject w path contents result

/-- `build/mod.rs:143-201` `build`. -/
def Builder.build (w : Machine) (b : Builder) : Run :=
  match b.source with
  | none => failWith c!"Source not configured.  Try builder.input_file(\"app.routes\")."
  | some source =>
    match b.target with
    | none => failWith c!"Target not configured.  Try builder.output_file(\"routes.rs\")."
    | some target =>
      match source with
      | .config c => writeTarget w b target c
      | .file name =>
        (buildFile w b target (resolve w b.sourceDir name)).after
          (if b.useCargo then [.rerun (resolve w b.sourceDir name)] else [])

/-- `wayfinder-cmd/src/main.rs:3-17` `main`. -/
def cmdMain (w : Machine) (args : List Str) : Run :=
  match args with
  | [] => ⟨[], .panicked⟩
  | [exe] => ⟨[.stderr (c!"Usage: " ++ exe ++ c!" ROUTE_FILE")], .returned⟩
  | _ :: path :: _ => ((Builder.new.inputFile path).outputStdout).build w

end Wayfinder
