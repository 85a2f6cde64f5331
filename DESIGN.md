# Formal model of couchand/wayfinder in Lean 4 — design

wayfinder reads a route file (or a `RouteConfig` built through its API) and **generates a Rust
program**: `match_route(path, method)`, one struct per action, and `to_path` methods.  The model
has three levels:

1. **the generator** – core types and printing, the nom parser, error reports, flattening, the
   prefix trie, the module table, code generation, the build driver and the command;
2. **the generated function** – the generator model produces an abstract syntax tree of the emitted
   Rust statements (`Model/Rust.lean`) with a printer (the exact text of the `writeln!` calls) and
   an interpreter;
3. **the generated file as text** – an independent lexer and reader for Rust (`Spec/Lex.lean`,
   `Spec/Read.lean`) and the checks and meaning rustc gives to what was read (`Spec/Elab.lean`).

Routing properties are about `interpreter ∘ generator`; C42–C45 connect them with the bytes that are
written to disk.

| directory (`lean/Verif/`) | content |
|---|---|
| `Model/` | definitions only, one file per source file, each definition cites lines of `/repo` |
| `Spec/` | specifications that do not use the model's helpers |
| `Proofs/` | helper lemmas |
| `Props/` | the property theorems, with concrete cases beside them |
| `Tests/` | `Golden`: emitted text = `wayfinder-tests/cases/*/routes.rs`; `Project`: the project's own test cases (generated by `tools/mkproject.py`); `Demo`, `Check`: demo configurations and executable checks of hypotheses; `Applied`: theorems applied to the demo configurations |

`properties.jsonl` is generated by `tools/mkprops.py`, `MANIFEST.json` by `tools/mkmanifest.py`.

## What is modelled

| source (`/repo/wayfinder/src`) | model |
|---|---|
| `core/mod.rs` types, `stringify`, `mount`, `Resource::make` | `Model/Core.lean` |
| `gen/flat.rs` flattening and the module table | `Model/Flat.lean` |
| `gen/trie.rs` | `Model/Trie.lean` |
| `gen/gen.rs` (name conversions, statements, structs, enums, `to_path`, prelude) | `Model/Names.lean`, `Model/Gen.lean`, `Model/Path.lean`, `Model/Rust.lean` |
| `parse/mod.rs` (with the nom 4.1 macros it uses) | `Model/Nom.lean`, `Model/Parse.lean` |
| `parse/errors.rs` | `Model/Errors.lean` |
| `build/mod.rs`, `wayfinder-cmd/src/main.rs` | `Model/Build.lean` |
| `core/macros.rs` without `header!` | `Model/Macros.lean` |
| `/repo/wayfinder-tests/src/diff.rs` | `Model/Diff.lean` |
| `/repo/examples/cli/src/main.rs` (`main`), derived `Debug` and `to_path` of the emitted enums | `Model/Cli.lean` |
| derived `PartialEq` of the emitted types | `Model/Derive.lean` |
| `/repo/wayfinder-tests/build.rs` (`write_cases`) and the test functions it writes | `Model/Cases.lean` (the written file is read back as statements, and running them is `goldenTest`: `Spec/Cases`, where what each statement does is transcribed by hand) |
| `/repo/wayfinder-goal/src/routes.rs`, `/repo/wayfinder-tests/cases/*/routes.rs` (generated files that are checked in) | `Model/Goal.lean`, `Model/CaseFiles.lean`: their texts, copied by `tools/mkgoal.py` |
| `match_route` in `/repo/wayfinder-goal/src/routes2.rs` (the router of an earlier generator, for the benchmark) | `Model/Old.lean` |

Not modelled: the conversion from `http::Method` (dead code: no `Cargo.toml` declares the feature
`http`), the macro `header!` (its result is rustc's text for the items), the dependencies of `examples/structured` (its `main` is the text of that of `cli`; its configuration and its three tests
are in C59 and C63), the measuring in
`wayfinder-goal/src/benches.rs` (its two tests are in C70), the declarations in `routes2.rs`.

## Modelling decisions

* Text is `List Char` (`Str`), request paths and methods are `List UInt8`.
* `&mut`/consuming updates are functions returning the new value; `panic!`, `unwrap`, out-of-range
  slices and `unreachable!` are explicit error outcomes.
* **Generated statements** are a subset of Rust (`let`, `i += n`, `if`, the scanning `while`, `match`
  on slices and bytes, `return`).  Variables are *named*: a path parameter called `len` really
  shadows the generated `len`.  The two kinds of output that rustc rejects (a `Some('/')` arm in a
  match on bytes, statements in the position of an arm) are AST nodes, so "does not compile"
  (`compiles body = false`) is expressible.
* `FromStr` of user types is an arbitrary function `typ → text → Except E V` (`World`, a parameter of
  the theorems).  `str::from_utf8` is Lean core's verified UTF-8 decoder.
* **nom 4.1** is modelled from its documented behaviour on `CompleteStr` with `verbose-errors`; its
  source is not in the sandbox.  No `Incomplete`; `complete!` is the identity; `many0!` stops when
  an element consumes nothing; a failure of the first element of `many1!` becomes
  `Failure(Code(Many1))`; a lone carriage return is an error of `not_line_ending`; `tag_no_case!`
  is exact for the four verbs.  Whether `alt_complete!` tries the next alternative after a `Failure`
  (`ParseCfg.altFail`), and whether `return_error!` contains a `return` from the function around it
  (`ParseCfg.early`; it matters for the closing brace of a parameter only), are Boolean parameters; every
  theorem holds for all readings.
  `char::is_alphanumeric` is exact on ASCII and an arbitrary predicate (`ParseCfg.uni`) elsewhere.
* `HashMap` iteration order is an arbitrary permutation.
* Recursion through text uses fuel (length of the input + 1); independence of the fuel is proved
  (`C30_recursion`, `Proofs/GenTrie`).
* The file system of the build is a trace of effects with fault injection (`Machine`): every write may
  fail after a prefix.
* Machine integers: the emitted code computes with `Nat` instead of `usize`; that no sum overflows is C74; the error code of `parse/errors.rs` is a `u32` and
  wraps (C32).

## Vocabulary of the statements

* `HasRoute r segs query node`, `Declares`: what a configuration says, without tries.
* `Supported r body`: generation succeeds, the statements compile, and the configuration is `Hygienic`: no
  live path parameter is named `len`, and none named `start` has a further parameter behind it.  These are
  the two cases in which a parameter that hides a local variable of `match_route` compiles and changes what
  the function does (C52).  `Props/Siblings` (C13) says exactly when the
  first two hold: `Shapely` (conditions on siblings), `FieldsDistinct`, `ParamsUsed`, and `NamesOk`
  (conditions on parameters called `i`, `len`, `path`, `method`, `start` or `text`).
* `referenceRouter` (`Spec/Router.lean`): the *actual* behaviour of a compiled `match_route` as a recursion
  over the configuration — including the oddities — to which the program is proved equal
  (`Proofs/Refine`, `Proofs/Simulation`); declarative properties are stated with `Fits`, `Spells`,
  `Follows`, `Writes`, `Tame`, `Unmixed`, `Arrives`, which do not mention the router's recursion.
* `Written`, `Shallow` (`Spec/File.lean`): configurations expressible in a route file; what the printer can
  indent.
* `Clean c` (`Spec/Words.lean`): hypotheses under which the text of a file has a meaning: generation
  succeeds, headers are complete lines of Rust, all names are Rust names, templates have no braces,
  redirects have the parameters of their targets (`RedirectsFit`, by name) at the same types
  (`RedirectTypes`), names do not clash (`ClearNames`), path parameters can be bound (`FreeParams`).  C43
  shows that `ClearNames` is exactly what acceptance of the declarations needs.  C49 shows that, apart from
  the conditions on words (`Ready`), these conditions together with those of C13 are exactly what acceptance
  of the whole file needs, with `OneType` in place of `RedirectTypes`.
* `WordsIn Rust.Word`, `Spelt` (`Spec/Spell.lean`): words of letters, digits and underscores, in ASCII or beyond, which may be keywords or numbers; and the
  condition that those of them that are written as names are names.  C94 replaces the condition on words in `Ready` by these.
* `Typing`, `Routes.retype`, `Typed`, `OneType` (`Spec/Types.lean`): the capture of a path parameter does not
  name a type in the emitted file; rustc infers it from the declared fields.  For an action these are the types
  of its own route, but for a redirect those of the target.  C49 and C50 are therefore about the configuration
  with the types of the fields.
* `Outcome.Near` (`Spec/Offset.lean`): the same answer but for the field `start`.  The full claim, that the answers are the same, is false (`C98_cases`).
* `World.Sound`, `HasType`, `FieldsOf` (`Spec/Sound.lean`): values of declared types.  C97 is the only place where it is assumed that the values of
  `usize` are integers.
* `Doubled`, `Formats`, `BracesPaired`, `LinkTexts` (`Spec/Braces.lean`): braces in texts, and what `to_path` makes of them.  C95 replaces the
  condition `NoBraces` in `Ready` by these.

### The reader of Rust (C42–C45, C49)

The lexer does not cover character literals, raw strings, block comments (they make a text unreadable),
carriage returns in strings.  The reader accepts the forms of items and statements that the generator uses
and nothing else.  The elaboration checks: distinct names of items, variants and fields; no item hides a
name used in the emitted code; patterns name each field once; `format!` has as many arguments as holes;
values have all fields of the declared struct; redirect values have declared targets; the type at which a
parameter is parsed is inferred from the field it is used for; then the statements are checked as in
`Model/Rust.lean` (`compiles`).  rustc's check that every way through the function returns is not part of `compiles`; it always
passes then (C77).  It is **stricter than rustc** in one point:
a parameter's type may not be one of the types generated in the same module.  It does **not** check: that
user types exist and implement what is needed, names introduced by headers, lints; for types and imports see the next paragraphs.

**Imports (`Spec/Scope.lean`, C85).** A second reader, `readScoped`, is not told the headers: every module may begin with
`use path;` or `use path as name;`, where the path begins with a crate or with `crate`.  It checks that names are imported
once and do not clash, and that types of fields are imported or built in.  Groups, globs, `self::` and `super::` are
not read, imports are taken to be types that exist and implement what is needed, and types of parameters are single names.

**Traits (`Spec/Traits.lean`, C87).** `Served` says, for any assignment of traits to types, what rustc asks of the types in an
accepted file: `Debug`, `PartialEq`, `Eq` of all fields (`#[derive]`; `Option<T>` has them if `T` has them), `Display` of what `format!`
shows, `FromStr` (with an error that is `Debug + 'static`, for `Error::fail`) of what `text.parse()` gives.  So `f64` cannot be the type
of a parameter, for it is not `Eq`, and a type that only occurs in query parameters need be neither shown nor read.

**Layout (`Spec/Indent.lean`, C88).** A reader of lines with a stack of the brackets that earlier lines left open.  It knows strings
between double quotes (no escapes), comments at the beginning of a line, and nothing else of Rust; lines that begin with a dot stand one
level deeper.  Where the generator puts statements in the place of an arm it prints them one level too far left, so such a file is
recognised by its layout; `Some('/') => {}` is laid out well and rejected all the same.

## Findings: where the code does not do what the property says

Each is proved as a theorem (named) unless marked *(remark)*.

Routing
* C02/C04/C11: a parameter next to several statics sharing a first letter: the branch of the statics is
  dead, all their routes are unreachable (`C11_dead_statics`, `C02_completeness_false`,
  `C11_precedence_false`; `commons.routes` has this form).  This also breaks the round trip C15
  (`C15_roundtrip_false`) and mounting (C19_mount_false).
* C59: what this means for the shipped configurations: `commons.routes` loses three of its four routes
  (`C59_commons`); `example.routes` is right because no UUID begins with `new` (`C59_uuid`), only
  `/people/newton` is answered with NotFound and not with an error; the structured example redirects `/users` to
  another page than the original (`C59_structured`).
* C64: the crate documentation calls its route file and its code equivalent, but the file names the type of the id `uuid` and the code
  `Uuid`: the generated matchers agree exactly if the two types parse alike (`C64_exact`, `C64_equivalent_false`).  With the
  header of the file, `use uuid::Uuid;`, no type `uuid` is in scope, so the file emitted for it is not accepted (`Shipped.C85_shipped`).
* C67: the README says that the header can be any Rust code.  A line of it that begins with `/`, such as a comment, makes the file be
  rejected (`C67_header_false`, `C67_slash`); its empty lines are dropped.  It says that blank lines can be added anywhere: only empty
  ones can (`C67_blank_false`).  *(remark)* It refers to `examples.routes` and `common.routes`; the files are called `example.routes` and
  `commons.routes`.
* C60: nothing keeps a redirect from leading to a path that is redirected again.  A block with `GET -> Make` and `POST Make`
  passes the generator and rustc, and a browser that asks for it is sent to the same path for ever (`C60_end_false`).
* C80: a redirect to an action whose route begins with a parameter and goes on can lead to another host: parameters capture empty
  segments, so `GET /go//evil.example` is redirected to `//evil.example` (`C80_leaves_false`; exact condition `C80_redirect`).  *(remark)*
  Browsers also read `/\` as `//`; a value whose text begins with a backslash then has the same effect.
* C82: `to_path` writes the texts of values as they are.  Values whose texts have slashes can share a link: with the route `/{user}/{page}`
  the page `z` of `x/y` and the page `y/z` of `x` (`Demo.C82_slashes`).
* C83: `mount("/people", …)` is accepted.  The mounted configuration is then found at `//people` and not at `/people`, and its links begin
  with two slashes (`C83_leading`, `C83_delegates`, `C83_away`).
* C84: mounting something that builds in something that builds may not build, or may only fail in rustc: the exact conditions are
  `C84_generated` and `C84_supported` (`Demo.C84_needed` has a case for each).  Conversely `Demo.C84_mended`: a base with two parameters at the
  root is not accepted alone, but is after something is mounted in it; then only the first of the parameters is ever read.
* C85: `mount` merges headers that are the same text, so two spellings of one import (`use uuid::Uuid;`, `use uuid ::Uuid;`) both remain,
  and rustc rejects the file; likewise a module with the name of a crate that is imported from (`Demo.C85_needed`).  *(remark)* The macros make
  the text of a header with `stringify!`, whose spacing depends on the compiler; it need not be that of a route file.
* C58: adding a static child next to a parameter and another static takes the requests of the latter away
  (`C58_child_false`).
* C12: a parameter next to one static `s` does not capture segments that extend `s`
  (`/people/newton` next to `new` is NotFound).
* C13: distinct siblings do not imply compilable code: a static that is a prefix of another, a parameter next
  to statics with different first characters, two parameters without statics.  With statics, further
  parameters are silently dropped.
* C09: a block without resources whose children are a parameter and one one-character static: a path that
  ends there panics.  Invalid UTF-8 in a captured segment panics.
* C14: a parameter called `len` of type `usize` misroutes or panics, `start` yields a byte offset, `i`, `path`
  and `method` never compile.  Renaming can also reorder parameter siblings.
* C52: `text` compiles only if no parameter follows on the way to a resource; `start` only if it is used before
  the next block with a parameter, and is a `usize` if used later (`C52_compiles`, exact).  The other cases of
  `text` and `start` are routed correctly unless a parameter follows `start` (`C52_routes`);
  in that case only the field `start` is wrong, it holds the position of a segment of the path (C98).  The route `/{len}` is found exactly if the
  value is one more than its number of bytes, or two more and a slash follows (`C52_len`): `/9` panics, `/3/whatever` is
  routed.  Requests whose path does not pass through a parameter called `len` are answered correctly (C99).
* C06: a trailing slash is tolerated; the answer differs only if the path without it is NotFound.
* Empty segments are captured by parameters *(visible in `Fits`)*; an `Err` can be returned for a path that
  matches no route (C08).
* C42: parameters of a redirect are parsed at the type declared by the *target*
  (`C42_redirect_false`).

Generation
* C20: generation panics on siblings in the same slot, on two actions of the same name and module, and on a
  completely empty configuration.
* C26: a failed insertion returns an inner subtree rather than the original tree (`C26_original_false`).
* C35: `to_caps_case` is not idempotent on `__`, and gives non-identifiers (`_404` → `404`, `_` → empty).
* C43: generated declarations that rustc rejects: an action `Route`; `show` and `Show`; modules that differ in
  case; an action and a module of the same name; `Match`, `String`, unit action `None` in the outermost
  module; a module `std`; a parameter whose type is named like its action; no action at all
  (`C43_clashes`).
* C49: generated files that rustc rejects for other reasons: a parameter without resources behind it, a
  parameter named like a unit action of the outermost module, a redirect to an action that is not declared or
  has other parameters, a parameter for which two structs have different types (`C49_needed`).  A file with a parameter `start` and two
  such types may be accepted, because the redirect then gets the index into the path (`C49_start_needed`).
* C94: words are not compared with the keywords of Rust: a parameter named `type` passes the generator and gives a file that cannot be
  read (`C94_keyword`).  `to_caps_case` leaves nothing of `_`, so that an action or module of this name gives a struct or variant
  without a name (`C94_underscore`).  The types of parameters on a route that has only redirects are not written and may be anything (`Demo.untyped_read`).
* C96: texts of letters beyond ASCII, such as `café`, pass the parser (if `ParseCfg.uni` counts them as letters) and the generator.  They
  are written as byte strings, which rustc rejects, so a file with code for such a route is not accepted.  Below a parameter that is
  passed over in favour of a sibling no code is emitted, and they do no harm there (`C96_beyond`).
* C95: static texts are copied into templates of `format!` without doubling their braces.  A text with a single brace gives a file that
  does not compile (`C95_single`); one with a pair gives a file that compiles and whose links are not found (`C95_doubled`,
  `C95_lost`).  Route files have no braces in texts, but `PathSegment` of the API takes any.  The templates of the model have no
  names or numbers in braces; `{id}` as a static text is rejected here, whereas rustc (from 1.58 on) may take it as an argument.
* C90: the headers are copied into every module, so the size of the file is not linear in that of the configuration
  (`Demo.C90_quadratic`).

Parsing and printing
* C27/C28: `stringify` can indent seven levels; beyond that it prints dashes and the text is not accepted
  (`C27_exact`: the round trip holds exactly up to the limit).
* C31: the position inside an `Error` is discarded, such reports point to line 1
  (`C31_position_false`); the caret is misaligned from line 10000 on.
* C57: `many1!` throws the failure of its first element away, so nothing is reported from within the first
  resource or child of a block: the report shows the line where the block starts (`C57_hidden_false`).
* C81: nothing marks the end of a route file, so a file that is cut behind a resource is accepted with the routes up to there
  (`C81_truncated`); with a line written on two lines, as another action (`C81_halves_false`).
* C32: codes wrap after 2^32 registrations.
* Headers cannot begin with `/`; the file must end with a newline; a line of blanks is not ignored; `ws!` eats
  newlines inside `{ }`, `[ ]`, around `->` and `::`.  See C46 for the exact grammar.

Build
* C37: the output file is truncated before code generation can fail (`C37_late`).
* C41: with an empty argument list the command panics on `args[0]`; printing the usage exits successfully.

## Properties

Status and theorem names are in `MANIFEST.json`; "partial" means the statement of the property is false in
general: the negation is proved with a witness (`_false`), and the largest part found is proved
(`_partial`, mostly with an exact condition).

| id | proof idea |
|---|---|
| C01–C08, C10–C12 | refinement of the emitted program to the reference router by induction on the trie, then induction on the configuration |
| C09 | the router's panics and those of the program coincide; causes characterised |
| C13 | shape and typing of the emitted statements, both directions |
| C14 | renaming commutes with flattening and with the router |
| C15 | templates of `to_path` evaluated; corollary of C02 and C07; the exact condition (`C15_exact`) from C47 |
| C16, C17 | from the emitted arms |
| C18, C22 | canonical form of tries; sorting after any permutation |
| C19, C36 | `mount` and the router |
| C20, C21, C26 | invariants of insertion |
| C23–C25 | flattening against the stack-based traversal |
| C27–C30, C33, C34, C46 | the nom model; structural induction; a relational grammar |
| C31, C32 | error reports, counters |
| C35 | induction on lists |
| C37–C41 | traces with faults |
| C47 | every path, cut at its slashes, ends in one of five situations (induction on the configuration, `Proofs/Exact`); gives the exact conditions `C02_exact`, `C09_exact` |
| C04_config, C04_instances | `Covers`, a condition on the tree alone: every declared block is followed through the blocks to which the emitted code sends its texts; from C47 in one direction, in the other a request that is lost is built along the tree.  Assumes that texts are plain and ASCII.  `coversB` decides it |
| C02, C09, C11, C12, C14, C15, C19 `_config` | the exact condition on the configuration under which the property holds for every behaviour of `FromStr` (and `Display`): from C47 in one direction, in the other a request is built that breaks it, with texts (`é`) that begin like no static segment (`Props/Config`) |
| C42–C45 | lexer and reader run on the emitted text by computation with symbolic parts; elaboration of the syntax tree |
| C49 | the same, both directions: variables bound and used by the statements (`Proofs/Binds`), what the elaboration demands of literals; the types of the function do not change its lines (`Proofs/Retype`), and the checks with the types of the fields pass only if there is one type for every parameter (`Proofs/Demand`, `Proofs/Infer`) |
| C50 | composition of C37, C46, C20, C49, C47 and C45; the words of a parsed file satisfy all conditions of C49 except those that rustc's notion of a name adds (`RustNames`) |
| C51 | the rules of the macros as functions on tokens; the lexer on the printed line |
| C52 | scopes followed along the emitted statements (`Proofs/Scoping`): what is looked up, by whom, and what hides it; the conditions on routes read off (`Proofs/Naming`) |
| C53 | every piece of emitted code (`Proofs/Code`) returns within a bound given by the rest of the path (`Proofs/Cost`); what is counted is in `Spec/Cost` |
| C54 | induction on the edit script |
| C55 | the value returned by `match_route` (C49, C47) is one of a declared action, so its struct is found behind the variants; printing and `to_path` followed along the declarations; `C55_again` from C02 (`Follows`) |
| C56 | the written file is read back as test functions made of statements, and these are run; the verdict from C46, C20 and C22, the build from C37, the report from C54 |
| C57 | `Viable`: for each parser, relative to a prefix-closed set of texts that contains every text of what it reads: all places lie behind a text of the set, messages are apt; composed along the combinators, with the inverses of C46 for what has been read |
| C58 | walks (`Arrives`, C47) are carried over from one configuration to the other |
| C02, C04, C12, C15 `_guarded` | the condition on texts that `FromStr` has to reject (`Guarded`, `Spec/Guarded`) in place of conditions on siblings: every instance follows its route |
| C59 | the conditions of the `_config` theorems are decidable (`Props/Decide`: lists of all routes, of the open and of the wide ones) and are evaluated on the four shipped configurations (`Model/Shipped`); the structured example is an edit (C58) of the other one |
| C60 | C47 for the request, `RedirectsFit` (which an accepted file satisfies) for the fields, C45 for the path, and the round trip of C50 for the next request (`Spec/Client`, `Props/Client`) |
| C61 | induction on the form of emitted code (`Proofs/Code`), with an amortised bound: a branch pays with the routes it separates (`Proofs/Size`) |
| C62 | the text is lexed, the changes of rustfmt are undone and the tokens are compared with those of the emitted file, one character after the other (`Proofs/Format`), by the kernel; the answers follow from C42, C47 and C59 |
| C63, C64 | the walk of C47 is followed through the configuration, for a symbolic path, and compared with a table (`Spec/Table`) that does not mention it; the cases of the tests are rows of the table |
| C65 | the lemmas of C46 for the single parsers, with the places where a piece can end (`PieceEnds`) made explicit; printed pieces are moved line by line |
| C66, C67 | the texts of C46 as sequences of lines with levels (`Spec/Layout`), the sequences of trees as those a machine accepts (`Proofs/Layout`); a file is followed line by line up to the line `/` |
| C68 | every parser is written again with combinators that count (`Spec/ParseCost`; what they return is what the model returns, by definition), and the count is bounded by an amortised argument: a turn of a loop pays with the characters it takes, except in front of a line that is too deep, which all further parsers refuse at once (`Turns`, `TooDeep` in `Proofs/ReadCost`, `Proofs/ReadRoutes`).  A comparison `rest == input` counts as one step.  *(remark)* When nothing was taken, nom compares the whole remaining text; this happens once for every header line, so in the number of header lines the real parser is quadratic, with the speed of `memcmp` |
| C69 | from C01 and C07: the byte is not a slash, so it lies in a part, and not in the part of a text |
| C70 | the old router is followed along its text and compared with a table on the pieces of the path; the table of the new router is that of C63 |
| C71 | a relation between two runs of the reference router, by induction over the configuration |
| C48 | the lines of the emitted text (`Spec/Doc`) |
| C72 | induction over the statements of the emitted language: the method is read by `match method` only, which returns; then the reference router |
| C73 | a FromStr that reveals the type shows every line of the table (`C73_shown`); conversely what a request arrives at, takes and ends with is a function of the table (`SameTable`) |
| C74 | code that advances `i` only behind a slice of at least that length keeps `i` in the path (`blockCareful`), and generated code is of this kind because a compiled program never rebinds `i` |
| C75 | the list of calls is a second result of executing the statements (`Spec/Asks.lean`); by induction over the form of generated code, together with the variables in scope |
| C76 | a verdict (`Spec/Relabel.lean`) keeps the resource that was found, the query parameters in scope and the captured values, so that both answers are read off one verdict; by induction on the configuration, via the reference router |
| C77 | divergence and the types of blocks as defined by the Rust reference (`Spec/Flow.lean`), by induction on the form of emitted code; `compiles` does not contain this check because it always passes |
| C78 | growth as an inductive relation (`Spec/Api.lean`); the actions of the tree of modules are those declared (C24), so that it grows along; `C78_same` by extensionality of the tree |
| C79 | on the lines of C66 (`Spec/Insert.lean`): the place divides the lines of one block, by induction on the tree; the effect on answers is C58's |
| C80 | the first text of a path decides (`onSite_texts`, `texts_start`); the texts are those of C45 and C60 |
| C81 | a text has one reading as lines (`lines_unique`); the line with the slash is found in the same place (`slash_cancel`); a tree whose lines begin those of another is a beginning of it (`begins_iff`) |
| C82 | texts without slashes are found again in what is joined (`joined_inj`), from `C45_to_path`; `readSame_iff` compares the routes; `Overlap.values` finds the values |
| C83 | a static child with slashes in its text compared with blocks inside each other (`nested_static`, induction on the parts); a world in which no text is a value shows the other direction; `route_static` does not need texts without slashes |
| C84 | `liveRoute_added`, `action_added`, `emitted_added`: the routes, actions and emitted resources of a block with one more child are those of both; each condition of C20, C49 and the refinement theorem is taken apart along them |
| C85 | `readScoped_eq`: reading with unknown imports agrees with reading with known headers, for the headers end where no `use` follows; `scoped_iff_inScope`: the check of every module, taken apart along the modules of the configuration |
| C86 | `codeOf_comment`: the comment has no line of code; the rest of the text depends on the module tree and the matcher, which C18 says are the same |
| C87 | `block_captured`/`block_parsed`: the variables that are parsed are those captured by literals, except for the index `start`; `emitted_literals` says which these are |
| C88 | `Lay st t st'` for texts of whole lines, closed under append; `lay_stmt`/`lay_module` by induction on what is printed, with `Wrong` for stray statements |
| C89 | composition of C49, C85, C87 and C77; `emitBlock_fits`: the check of control flow does not depend on blank lines and the case of names |
| C90 | induction over the tree of modules; its actions are a permutation of the resources, its modules of the beginnings of their module names (C24) |
| C91 | a returned value has a struct and typed values for its fields (`Held`, from C49 and C24); words, brackets, field names and delimited values are split off the text one by one |
| C92 | `mem_answering`: the computed list has the first resources of the blocks on open routes; C47 for one direction, `Open.follows` and C02 for the other |
| C93 | `code_height`: by induction over the inductive description of the emitted code (`Code`) the height of code for a set of static children is bounded by their number, each `match` with several arms losing at least one child; `left_block`: lines of a block begin at its level plus at most its height |
| C94 | `fileToks_iff`: the reader succeeds on the tokens of a file of words exactly if names stand where it reads names (mutual induction over statements and modules); `blockNamed_iff` splits the names of a block into those of its values and its variables; `code_binds`: the variables of emitted code are the parameters on the routes it is for |
| C95 | `templates_iff`: the templates of all structs can be formatted exactly if the braces on their routes are doubled (`template_consume`, a formatter that succeeds on a template of `{}` and texts consumes the texts one by one); `link_fits`: texts that fit a route are its texts |
| C96 | `codegen_lex`: the file is read as its tokens, or not at all if a byte string is beyond ASCII; `spelt_legible`: if the words of C94 are names, the emitted file is read as meant, which is all that C49 and C95 need of words (`Legible`) |
| C97 | type soundness by induction on statements (`Proofs/Sound`): in a typed environment a checked statement answers or leaves a typed environment; exhaustiveness and the final `return` from C77; the literals of the emitted function from C49 |
| C98 | the induction of C52 once more (`Proofs/Offset`) with an invariant in which `start` is bound to its value or to a position, and answers up to that (`Spec/Offset`) |
| C99 | the same induction: the invariant keeps that a beginning of the path is an instance of the route so far, so that the block behind `len` is not entered |
| C100 | from C99 and C97 for the program that is read from an accepted file (C96) |

## Wrong programs

`seeded/LOG.jsonl` has one line per attempt: the definition of the model that was edited, the edit (a
realistic bug), the property it breaks (`claim`), the theorems that fail with the edited model (`failed`:
theorems of the manifest that no longer check, because of their own proof or of one they rest on) and the
theorems that were tightened because of it.

## Trusted base

* The kernel of Lean 4.33.0.  Axioms of every theorem: at most `propext`, `Classical.choice`,
  `Quot.sound`; no own axioms, no `sorry`, no `native_decide`/`bv_decide`.  `decide +kernel` is used only
  on closed witnesses and tests.
* The reading of `/repo` in `Model/`, checked against the emitted files in `wayfinder-tests/cases` by
  `Tests/Golden.lean` and against the project's own tests by `Tests/Project.lean`.
* The reading of nom 4.1 and of Rust's standard library listed above.
* The semantics of Rust for the emitted statements (`Model/Rust.lean`) and declarations
  (`Spec/Elab.lean`).
