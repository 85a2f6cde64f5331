{"id": "C01", "title": "Only declared routes are ever matched (soundness)", "statement": "If the generated match_route(path, method) returns Ok(Match::Route(x)) or Ok(Match::Redirect(x)), then the configuration declares a resource with that module path and action name, the method bytes are exactly that resource's verb, and the request path (after one optional leading '/') is that resource's declared route with every {param} replaced by some '/'-free text, followed by at most one trailing '/'.", "quantifier": "every supported configuration (the generator succeeds, rustc accepts the output, and no parameter is named like a local variable of the generated function), every request path (byte string), every method byte string, every behaviour of the parameter types' FromStr", "why_tests_cant": "The set of configurations and of request paths is infinite; the generated code is a different program for every configuration, and tests only run the programs generated from three files.", "anchors": ["wayfinder/src/gen/gen.rs:codegen_trie", "wayfinder/src/gen/gen.rs:write_methods", "wayfinder/src/gen/gen.rs:write_dynamic"]}
{"id": "C02", "title": "Every declared static route is reachable (completeness)", "statement": "For every resource declared on a route, the path obtained by writing out the route's segments (parameters replaced by texts that parse, contain no '/' and do not begin with a static sibling) with its verb is answered by match_route with exactly that resource (the first declared for that verb on the route).", "quantifier": "every supported configuration, every resource in it, every choice of parameter texts", "why_tests_cant": "Needs all configurations and all parameter texts; tests try ~35 paths on one configuration.", "anchors": ["wayfinder/src/gen/gen.rs:codegen_trie", "wayfinder/src/gen/flat.rs:FlattenedRoutes::flatten"]}
{"id": "C03", "title": "405 exactly when the path is known but the verb is not", "statement": "match_route returns Ok(Match::NotAllowed) if and only if the path selects a route that declares at least one resource and none of them has the request's verb; the verb comparison is exact and case-sensitive on bytes.", "quantifier": "every supported configuration, path and method byte string", "why_tests_cant": "Universal over all byte strings for the method and path.", "anchors": ["wayfinder/src/gen/gen.rs:write_methods", "wayfinder/src/core/mod.rs:Method::byte_str"]}
{"id": "C04", "title": "404 exactly when no declared route is an instance of the path", "statement": "If match_route returns Ok(Match::NotFound), then no declared static-only route that has a resource is equal to the path; and on configurations without a parameter next to a static sibling, NotFound is returned only if no declared route with resources has the path as an instance.", "quantifier": "every supported configuration, every path and method", "why_tests_cant": "A universally quantified negative: absence of a match over every path.", "anchors": ["wayfinder/src/gen/gen.rs:codegen_trie"]}
{"id": "C05", "title": "The leading slash is optional", "statement": "For every path p that does not itself begin with '/', match_route(p, m) and match_route(\"/\" + p, m) give the same result (same match, same parameters, same error or same panic).", "quantifier": "every supported configuration, every path not beginning with '/', every method", "why_tests_cant": "Ranges over every generated program and every path.", "anchors": ["wayfinder/src/gen/gen.rs:codegen"]}
{"id": "C06", "title": "A trailing slash does not change the match", "statement": "For every non-empty path p not ending in '/', if the route selected by p declares a resource then match_route(p + \"/\", m) = match_route(p, m).", "quantifier": "every supported configuration with static texts that are non-empty and have no '/' (as in every route file), every path not ending in '/', every method", "why_tests_cant": "Ranges over every generated program and every path.", "anchors": ["wayfinder/src/gen/gen.rs:codegen_trie", "wayfinder/src/gen/gen.rs:write_methods"]}
{"id": "C07", "title": "Captured parameters are exactly the path segment", "statement": "When a route with parameters is matched, each parameter field holds the result of FromStr on exactly the '/'-free text found at that parameter's position in the path, for the declared type of that parameter; fields are never swapped, truncated or taken from another segment.", "quantifier": "every supported configuration whose parameter names are distinct and do not clash with the generated code's own variables, every path, method and FromStr behaviour", "why_tests_cant": "Needs every number and arrangement of parameters and every text.", "anchors": ["wayfinder/src/gen/gen.rs:write_dynamic", "wayfinder/src/gen/gen.rs:write_methods", "wayfinder/src/gen/flat.rs:FlattenedPath::dynamics"]}
{"id": "C08", "title": "Errors name the failing parameter", "statement": "match_route returns Err only if FromStr of some declared parameter fails on the '/'-free text at its position in the path; the error carries that parameter's name and that FromStr error, and it is the leftmost such parameter on the route being followed.", "quantifier": "every supported configuration, path, method and FromStr behaviour", "why_tests_cant": "Universal over all FromStr implementations and paths.", "anchors": ["wayfinder/src/gen/gen.rs:write_dynamic"]}
{"id": "C09", "title": "match_route does not panic on valid UTF-8", "statement": "For every request path that is valid UTF-8 and every method, match_route returns (no index-out-of-bounds or unwrap panic).", "quantifier": "every configuration for which code is generated, every valid UTF-8 path, every method", "why_tests_cant": "Absence of panics for every input; the slicing bounds depend on the configuration.", "anchors": ["wayfinder/src/gen/gen.rs:codegen_trie", "wayfinder/src/gen/gen.rs:write_dynamic"]}
{"id": "C10", "title": "Query parameters are always None in matches", "statement": "Every struct produced by match_route has all its query-parameter fields equal to None, and has one field for each path parameter and each query parameter in scope (inherited from enclosing routes, then the route's own, then the resource's own).", "quantifier": "every configuration, path and method", "why_tests_cant": "Universal over configurations and nesting depths.", "anchors": ["wayfinder/src/gen/gen.rs:write_methods", "wayfinder/src/gen/flat.rs:FlattenedRoutes::flatten"]}
{"id": "C11", "title": "A static segment takes precedence over a parameter sibling", "statement": "When a route has both a static child s and a parameter child, a path whose next segment is exactly s is handled by the static child, never captured by the parameter.", "quantifier": "every configuration with a static child and a parameter child at the same level (any number of static children), every path", "why_tests_cant": "The generated shape depends on how many static siblings share a first character; a golden-file test cannot see that the emitted branch is dead.", "anchors": ["wayfinder/src/gen/gen.rs:codegen_trie"]}
{"id": "C12", "title": "A parameter sibling still captures everything that is not a static sibling", "statement": "When a route has both a static child s and a parameter child, every non-empty segment different from s is captured by the parameter.", "quantifier": "every configuration with a static and a parameter child at the same level, every segment text", "why_tests_cant": "Quantifies over every segment text, including those having s as a proper prefix.", "anchors": ["wayfinder/src/gen/gen.rs:codegen_trie"]}
{"id": "C13", "title": "Any set of distinct static siblings yields compilable code", "statement": "For every configuration whose sibling segments are distinct, the emitted match_route body is syntactically and type-correct: no match arm with a pattern of the wrong type and no statements in arm position.", "quantifier": "every configuration with distinct sibling segments and identifier-like ASCII segment texts", "why_tests_cant": "Tests compile three generated programs; the claim is about the program generated from each configuration.", "anchors": ["wayfinder/src/gen/gen.rs:codegen_trie"]}
{"id": "C14", "title": "Parameter names are immaterial to routing", "statement": "Renaming a path parameter in the configuration (consistently, to a fresh name) changes only the field name in the result, never which route is matched nor any captured value.", "quantifier": "every configuration, every injective renaming of its parameters, every path and method", "why_tests_cant": "Quantifies over every possible parameter name, including those used by the generated code itself.", "anchors": ["wayfinder/src/gen/gen.rs:write_dynamic", "wayfinder/src/gen/gen.rs:codegen"]}
{"id": "C15", "title": "to_path and match_route are inverse", "statement": "For every action of a supported configuration and all parameter values whose Display text is '/'-free, parses back to the same value and does not begin with a static sibling, match_route(x.to_path(), verb) = Ok(Match::Route(x with all query parameters None)).", "quantifier": "every supported configuration, action and parameter values", "why_tests_cant": "A round trip over all configurations and all parameter values.", "anchors": ["wayfinder/src/gen/gen.rs:codegen_module", "wayfinder/src/gen/gen.rs:codegen_trie"]}
{"id": "C16", "title": "Redirects are reported as redirects, and only redirects", "statement": "A resource declared with '->' is only ever reported through Match::Redirect, one declared without it only ever through Match::Route.", "quantifier": "every configuration, path and method", "why_tests_cant": "Universal over generated programs.", "anchors": ["wayfinder/src/gen/gen.rs:write_methods"]}
{"id": "C17", "title": "The first resource declared for a verb wins", "statement": "If a route declares several resources for the same verb, match_route always answers with the first declared and the later ones are unreachable.", "quantifier": "every configuration, path and method", "why_tests_cant": "Universal over resource lists.", "anchors": ["wayfinder/src/gen/gen.rs:write_methods"]}
{"id": "C18", "title": "Order of sibling routes is irrelevant", "statement": "Permuting the nested routes inside a configuration (at any level) leaves the emitted match_route body unchanged, text included.", "quantifier": "every configuration and every permutation of sibling routes at every level", "why_tests_cant": "All permutations of all configurations.", "anchors": ["wayfinder/src/gen/trie.rs:Trie::add", "wayfinder/src/gen/flat.rs:FlattenedRoutes::to_trie"]}
{"id": "C19", "title": "mount embeds a configuration under a prefix", "statement": "After base.mount(seg, sub), a request for /seg/rest is answered as sub answers /rest (with base's root query parameters added as None fields), and a request whose first segment does not begin with seg is answered as base answers it.", "quantifier": "all supported base and sub configurations, all mount points, paths and methods", "why_tests_cant": "Compositional statement over all pairs of configurations.", "anchors": ["wayfinder/src/core/mod.rs:RouteConfig::mount", "wayfinder/src/gen/gen.rs:codegen_trie"]}
{"id": "C20", "title": "Code generation fails exactly on ambiguous configurations", "statement": "codegen panics if and only if two sibling routes have the same segment (same static text or same parameter name), or two non-redirect resources have the same module path and name, or the configuration is completely empty; otherwise it completes and returns Ok.", "quantifier": "every configuration", "why_tests_cant": "An exact characterisation over all configurations.", "anchors": ["wayfinder/src/gen/flat.rs:FlattenedRoutes::to_trie", "wayfinder/src/gen/flat.rs:FlattenedModules::flatten", "wayfinder/src/gen/gen.rs:codegen"]}
{"id": "C21", "title": "Internal generator errors are unreachable", "statement": "The 'must be followed by a separator' InvalidInput errors, the 'there must be a dynamic' assertion and the unreachable!() branches of the generator can never be hit.", "quantifier": "every configuration", "why_tests_cant": "Universal over configurations; a test can only fail to hit them.", "anchors": ["wayfinder/src/gen/gen.rs:write_dynamic", "wayfinder/src/gen/gen.rs:codegen_trie"]}
{"id": "C22", "title": "Output is deterministic despite hash-map iteration order", "statement": "The list of modules and actions emitted by codegen does not depend on the order in which the internal hash maps are drained.", "quantifier": "every configuration and every iteration order of every hash map involved", "why_tests_cant": "A test sees one hash seed per run.", "anchors": ["wayfinder/src/gen/flat.rs:helper::Module::finalize"]}
{"id": "C23", "title": "Struct literals agree with struct declarations", "statement": "For every resource not declared as a redirect, the struct literal emitted in match_route names a struct that is declared in the emitted module tree at that path, with exactly the same fields in the same order.", "quantifier": "every configuration for which codegen succeeds", "why_tests_cant": "Relates two independent traversals (recursive and stack based) of every configuration.", "anchors": ["wayfinder/src/gen/gen.rs:write_methods", "wayfinder/src/gen/gen.rs:codegen_module", "wayfinder/src/gen/flat.rs:FlattenedModules::flatten"]}
{"id": "C24", "title": "Every action is declared exactly once, and nothing else is", "statement": "The emitted module tree contains one struct for each non-redirect resource in the configuration, at the module path of that resource, carrying that resource's verb, route and parameters, and contains no other struct.", "quantifier": "every configuration for which codegen succeeds", "why_tests_cant": "Universal over configurations, including arbitrarily interleaved module paths.", "anchors": ["wayfinder/src/gen/flat.rs:FlattenedModules::flatten", "wayfinder/src/gen/flat.rs:helper::Module"]}
{"id": "C25", "title": "Query parameters are inherited from all enclosing routes", "statement": "The query parameters of an action are those of each enclosing route from the root down, followed by the resource's own, in declaration order.", "quantifier": "every configuration and every nesting depth", "why_tests_cant": "Unbounded nesting.", "anchors": ["wayfinder/src/gen/flat.rs:FlattenedModules::flatten", "wayfinder/src/gen/flat.rs:FlattenedRoutes::flatten"]}
{"id": "C26", "title": "The prefix tree is a map with insert-if-absent", "statement": "Adding an element under a path succeeds iff no element is stored under exactly that path; afterwards the path yields the element and every other path yields what it did before; children stay sorted and duplicate-free; on failure the original tree is returned.", "quantifier": "every sequence of insertions, every key type with a total order", "why_tests_cant": "All insertion histories.", "anchors": ["wayfinder/src/gen/trie.rs:Trie::add"]}
{"id": "C27", "title": "Parsing a printed configuration gives it back", "statement": "For every well-formed configuration, route_config(config.stringify()) succeeds, consumes everything and returns exactly that configuration.", "quantifier": "every configuration whose names are identifiers, whose blocks are non-empty, and whose headers are non-empty single lines not beginning with '/'", "why_tests_cant": "A round trip over all configurations; tests try two.", "anchors": ["wayfinder/src/core/mod.rs:RouteConfig::stringify", "wayfinder/src/parse/mod.rs:route_config"]}
{"id": "C28", "title": "Printing then parsing is idempotent on accepted files", "statement": "If route_config accepts a text and returns config, then printing config and parsing again returns config.", "quantifier": "every text accepted by the parser", "why_tests_cant": "Universal over texts.", "anchors": ["wayfinder/src/core/mod.rs:RouteConfig::stringify", "wayfinder/src/parse/mod.rs:route_config"]}
{"id": "C29", "title": "Accepted files only produce well-formed configurations", "statement": "Whatever text route_config accepts, the result has only non-empty identifier names, a resource or a nested route in every block, and non-empty single-line headers not beginning with '/'.", "quantifier": "every input text", "why_tests_cant": "Universal over texts.", "anchors": ["wayfinder/src/parse/mod.rs:route_config", "wayfinder/src/parse/mod.rs:is_identifier_char"]}
{"id": "C30", "title": "Parsing always terminates, consumes everything on success and reports positions inside the input", "statement": "route_config returns for every text; when it succeeds the remaining input is empty; when it fails every position in the error is a suffix of the input.", "quantifier": "every input text", "why_tests_cant": "Termination and suffix-closure for every text.", "anchors": ["wayfinder/src/parse/mod.rs:route_config"]}
{"id": "C31", "title": "Error display never panics and points at the right line", "statement": "For every failing text show_errors prints without panicking; for each reported position the line number shown is one plus the number of newlines before it, the line shown is the line containing it and the caret column is the number of characters from the start of that line.", "quantifier": "every input text and every error position", "why_tests_cant": "Slicing at byte offsets must hit char boundaries for every Unicode text.", "anchors": ["wayfinder/src/parse/errors.rs:show_errors", "wayfinder/src/parse/errors.rs:show_error", "wayfinder/src/parse/errors.rs:what_line"]}
{"id": "C32", "title": "Error codes are stable", "statement": "After any sequence of error registrations, looking up the code returned by a registration gives the message registered, forever.", "quantifier": "every sequence of registrations", "why_tests_cant": "All histories.", "anchors": ["wayfinder/src/parse/errors.rs:def_error", "wayfinder/src/parse/errors.rs:get_error"]}
{"id": "C33", "title": "Blank lines and line-ending style do not matter", "statement": "Inserting empty lines between the lines of an accepted file, or switching between LF and CRLF line endings, does not change the parsed configuration.", "quantifier": "every accepted text, every set of insertion points", "why_tests_cant": "All texts and all placements.", "anchors": ["wayfinder/src/parse/mod.rs:require_newline", "wayfinder/src/parse/mod.rs:route_config"]}
{"id": "C34", "title": "Verb keywords are case-insensitive in route files", "statement": "Every letter-case variant of GET/POST/PUT/DELETE parses to the same verb.", "quantifier": "every case variant, every continuation of the input", "why_tests_cant": "Universal over continuations.", "anchors": ["wayfinder/src/parse/mod.rs:method"]}
{"id": "C35", "title": "Generated identifiers are well-formed case conversions", "statement": "to_snake_case yields no ASCII upper-case letter and to_caps_case yields a name starting with no ASCII lower-case letter; both leave already converted names unchanged.", "quantifier": "every name", "why_tests_cant": "All strings.", "anchors": ["wayfinder/src/gen/gen.rs:to_caps_case", "wayfinder/src/gen/gen.rs:to_snake_case"]}
{"id": "C36", "title": "Merging headers keeps each once, in first-seen order", "statement": "After mounting any sequence of configurations the headers are exactly the distinct headers of all of them, in order of first occurrence, and mounting adds exactly one nested route at the end.", "quantifier": "every sequence of mounts", "why_tests_cant": "All sequences.", "anchors": ["wayfinder/src/core/mod.rs:RouteConfig::mount"]}
{"id": "C37", "title": "A failed build never touches the output before the input is validated", "statement": "Builder::build exits with a failure status without creating or truncating the output file whenever source or target is not configured, the input file cannot be read, or it does not parse; it exits successfully only if the complete generated text was written.", "quantifier": "every builder configuration, every file system behaviour, every point at which a write fails", "why_tests_cant": "Every crash/IO-failure point.", "anchors": ["wayfinder/src/build/mod.rs:Builder::build"]}
{"id": "C38", "title": "The output file is complete or the build fails, and it is always a prefix of the full text", "statement": "At every moment during code generation, what has been written is a prefix of the text a fault-free run would write.", "quantifier": "every configuration and every crash or write-failure point", "why_tests_cant": "Every crash point.", "anchors": ["wayfinder/src/build/mod.rs:Builder::build", "wayfinder/src/gen/gen.rs:codegen"]}
{"id": "C39", "title": "Builder settings: the last setting wins and order does not matter otherwise", "statement": "The behaviour of build depends only on the last input_* call and the last output_* call.", "quantifier": "every sequence of builder calls", "why_tests_cant": "All call sequences.", "anchors": ["wayfinder/src/build/mod.rs:Builder"]}
{"id": "C40", "title": "Resource construction from a handler path", "statement": "Resource::make splits a non-empty handler path into all-but-last as modules and last as name, and panics on an empty one.", "quantifier": "every handler path", "why_tests_cant": "All lists.", "anchors": ["wayfinder/src/core/mod.rs:Resource::make"]}
{"id": "C41", "title": "Command and Cargo entry points", "statement": "from_env yields a builder exactly if both Cargo variables are set to valid text, and such a builder resolves file names in those directories and prints the rerun line first; the command never creates a file and prints no line for Cargo, and ends normally with an argument exactly if the file loads, has no clashes and all generated text was written to standard output.", "quantifier": "every environment, argument list, file system behaviour and write-failure point", "why_tests_cant": "Every failure point.", "anchors": ["wayfinder/src/build/mod.rs:Builder::from_env", "wayfinder-cmd/src/main.rs:main"]}
{"id": "C42", "title": "The text of the emitted file is the intended program", "statement": "For a supported configuration whose names are clash-free Rust names and whose redirects fit their targets, the text written by codegen, split into tokens, parsed and type-checked as Rust, is accepted; and match_route called on it returns for every path and method what the intended program returns, with names in the case used in Rust. So it is sound, and complete where siblings do not compete.", "quantifier": "every such configuration, every path and method, every FromStr implementation", "why_tests_cant": "Golden files compare texts of three configurations; the meaning of the text is never checked for others.", "anchors": ["wayfinder/src/gen/gen.rs:codegen", "wayfinder/src/gen/gen.rs:codegen_trie", "wayfinder/src/gen/gen.rs:codegen_module"]}
{"id": "C43", "title": "The emitted declarations are accepted exactly if no names clash", "statement": "If code is generated, the matcher compiles and redirects fit, then the emitted file is accepted exactly if the names of actions, modules, parameters and types do not clash with each other after case conversion nor with the names used in the emitted code.", "quantifier": "every such configuration", "why_tests_cant": "All combinations of names.", "anchors": ["wayfinder/src/gen/gen.rs:codegen_module", "wayfinder/src/gen/gen.rs:to_caps_case", "wayfinder/src/gen/gen.rs:to_snake_case"]}
{"id": "C44", "title": "The emitted file declares exactly the actions of the configuration", "statement": "Read back, the emitted file has one struct for each action that is not a redirect, in the module of its path, with exactly the fields for its path parameters and optional ones for its query parameters; each enum has one variant for each action and submodule, and to_path handles them all.", "quantifier": "every such configuration, every module path", "why_tests_cant": "All module trees.", "anchors": ["wayfinder/src/gen/gen.rs:codegen_module", "wayfinder/src/gen/flat.rs:FlattenedModule"]}
{"id": "C45", "title": "to_path of the emitted file prints the route", "statement": "to_path of the emitted file, called on the struct of a declared action, returns the segments of its route with the Display texts of the parameter values, each behind a slash.", "quantifier": "every such configuration, every action, all parameter values", "why_tests_cant": "All routes and values.", "anchors": ["wayfinder/src/gen/gen.rs:codegen_module"]}
{"id": "C46", "title": "The parser accepts exactly the grammar of route files", "statement": "A text is accepted with a configuration exactly if it is a text of that configuration according to a context-free grammar with indentation (headers, a slash line, blocks of query parameters, resources and children, two blanks per level, free blanks only inside brackets and braces and around -> and ::). The grammar is unambiguous; every accepted text ends with a newline; acceptance does not depend on how nom's alternatives treat failures.", "quantifier": "every text, every configuration", "why_tests_cant": "Both directions range over all texts; ambiguities between alternatives (a segment called get, a resource line that looks like a child) only show on unusual inputs.", "anchors": ["wayfinder/src/parse/mod.rs:route_config", "wayfinder/src/parse/mod.rs:routes", "wayfinder/src/parse/mod.rs:nested_routes", "wayfinder/src/parse/mod.rs:resource"]}
{"id": "C47", "title": "The exact answer to every request", "statement": "For a configuration the generator and rustc accept, cut the path at its slashes and follow the pieces through the configuration: each of the outcomes match (with which resource and values), NotAllowed, error (of which parameter), panic and NotFound occurs exactly if the pieces arrive at a block of the corresponding kind; no choice is left in following them.", "quantifier": "every supported configuration, every request path and method as bytes, every FromStr behaviour", "why_tests_cant": "The table of conditions is exhaustive and exclusive over all paths and configurations.", "anchors": ["wayfinder/src/gen/gen.rs:codegen_trie", "wayfinder/src/gen/gen.rs:codegen"]}
{"id": "C48", "title": "The documentation in the emitted file shows the configuration", "statement": "The code block in the documentation of the emitted module is the route file of the configuration without its headers; given to the parser it gives the routes back, so files with equal text come from equal routes. The struct of every resource that is not a redirect is declared directly below a line with its method and route.", "quantifier": "every configuration the parser can produce for which code is generated (reading back: within the indentation limit of the printer)", "why_tests_cant": "The block is cut out of a text with replaced newlines and a dropped tail; golden files show it for three configurations only.", "anchors": ["wayfinder/src/gen/gen.rs:codegen", "wayfinder/src/gen/gen.rs:codegen_module", "wayfinder/src/core/mod.rs:Routes::stringify"]}
{"id": "C49", "title": "The emitted file is accepted exactly under stated conditions", "statement": "If generation succeeds and the words of the configuration are words of Rust, the emitted file is accepted exactly if the blocks have a form the generator can handle, there is a resource behind every parameter, no names clash after conversion of case, parameters can be bound as variables, every redirect has the parameters of a declared action, and all structs returned behind a path parameter have one type for it; and if it is accepted, its match_route is the program for the configuration with these types, which for a redirect are those of its target and not the ones written on its route.", "quantifier": "every such configuration, every request path and method, every FromStr behaviour", "why_tests_cant": "Acceptance is decided by rustc when the user builds their crate; the project compiles three examples.", "anchors": ["wayfinder/src/gen/gen.rs:codegen", "wayfinder/src/gen/gen.rs:codegen_trie", "wayfinder/src/gen/gen.rs:codegen_module", "wayfinder/src/gen/flat.rs"]}
{"id": "C50", "title": "From the route file to the answers of the compiled program", "statement": "If a build from a route file returns, the input is a text of the grammar of route files, and for the configuration it denotes (if its words are words of Rust): the bytes written are accepted by rustc exactly under the conditions of C49, and then the compiled match_route answers every request with the one answer prescribed by the configuration, where path parameters have the types of the fields for which they are used. to_path of the compiled file, called on an action, returns a path that match_route answers with the same struct exactly if the texts follow the route of the action and the action is the first of its block for its verb.", "quantifier": "every machine, builder and route file; every request; every FromStr and Display behaviour", "why_tests_cant": "The statement composes parser, generator, printer, build helper and the compiled program for all inputs; tests exercise the stages separately on samples.", "anchors": ["wayfinder/src/build/mod.rs:Builder::build", "wayfinder/src/parse/mod.rs:route_config", "wayfinder/src/gen/gen.rs:codegen", "wayfinder/src/gen/gen.rs:codegen_trie", "wayfinder/src/gen/gen.rs:codegen_module"]}
{"id": "C51", "title": "The macros of the API and the lines of route files", "statement": "get!, post!, put! and delete! give a resource exactly if the argument is its path, behind -> for redirects, followed by a param! for each query parameter; param! gives a parameter exactly if the argument is name: type. The line of a resource without query parameters in a route file is the verb and then what the macro takes, the text of a parameter is what param! takes, and the values agree. Redirects with query parameters and names that are not identifiers can be written in route files only.", "quantifier": "every sequence of tokens, every resource and parameter", "why_tests_cant": "The doc tests call each macro on three samples.", "anchors": ["wayfinder/src/core/macros.rs:get!", "wayfinder/src/core/macros.rs:post!", "wayfinder/src/core/macros.rs:put!", "wayfinder/src/core/macros.rs:delete!", "wayfinder/src/core/macros.rs:param!", "wayfinder/src/core/mod.rs:Resource::stringify"]}
{"id": "C52", "title": "Parameters named like variables of match_route", "statement": "Route files may call parameters i, len, path, method, start or text, as the emitted function calls its own variables. If everything else is in order, the function compiles exactly if no parameter for which code is emitted is called i, path or method, every len is a usize, no parameter follows text on the way to a resource, and every start is used before the next block with a parameter and is a usize if used later. A function that compiles routes as the configuration says unless a parameter is called len, or start with a further parameter behind it. With len the position is compared with the value: the route /{len} is found exactly if the value is one more than its number of bytes, or two more and a slash follows; otherwise the call panics at the end of the path.", "quantifier": "every configuration with any parameter names and types, every request path and method, every FromStr behaviour", "why_tests_cant": "The clash depends on the nesting of blocks around the parameter; no example uses such a name.", "anchors": ["wayfinder/src/gen/gen.rs:codegen", "wayfinder/src/gen/gen.rs:codegen_trie", "wayfinder/src/gen/gen.rs:write_dynamic"]}
{"id": "C53", "title": "The cost of a call does not depend on the number of routes", "statement": "For every configuration whose emitted function compiles and every request, a call of match_route with a path of n bytes (one leading / not counted) executes at most 10 n + 14 statements, turns of the while loop included, and returns; the factor 10 cannot be lowered. In particular there is no backtracking and no search through the routes. (Not counted is the work inside one statement: comparing a slice with patterns, from_utf8, the parsers of the parameter types.)", "quantifier": "every configuration whose emitted function compiles, every request path and method, every FromStr behaviour", "why_tests_cant": "A bound for all configurations and paths; a benchmark measures single cases.", "anchors": ["wayfinder/src/gen/gen.rs:codegen_trie", "wayfinder/src/gen/gen.rs:codegen", "wayfinder/src/gen/gen.rs:write_dynamic", "wayfinder/src/gen/gen.rs:write_methods"]}
{"id": "C54", "title": "The report of a failed golden test is a patch", "statement": "If the line diff leads from the expected to the actual lines, the hunks of the report, applied at the line numbers they name, turn the expected into the actual lines (all numbers and counts are right), and exchanged they lead back; without its colours the printed text consists of exactly the lines of the hunks; a golden test fails exactly if the texts differ, and then the report is not empty.", "quantifier": "every edit script, every pair of texts", "why_tests_cant": "The report is only printed when a test fails; its numbers are never checked.", "anchors": ["wayfinder-tests/src/diff.rs:TestDiff::to_chunks", "wayfinder-tests/src/diff.rs:TestResult::assert", "wayfinder-tests/src/diff.rs:DiffChunk"]}
{"id": "C55", "title": "What the example program prints", "statement": "If the emitted file is accepted (and no parameter is named len, or start with a parameter behind it), the program examples/cli around it prints its usage if no path is given, and otherwise exactly the answer that the configuration prescribes for the path and GET: the kind of the answer, the names of the modules and the struct, the values of all fields in the order of declaration, and the path of the action. A redirect shows the path of its target with the values of the request. If the texts of the values parse back to them, the printed path, given again, shows a route with the same struct and values and the same path, so following a redirect leads to a route.", "quantifier": "every configuration, every list of arguments, every FromStr, Display and Debug behaviour", "why_tests_cant": "The tests of the example compare 36 results of one configuration; the printed text and the composition of match_route with to_path are not tested.", "anchors": ["examples/cli/src/main.rs:main", "wayfinder/src/gen/gen.rs:codegen", "wayfinder/src/gen/gen.rs:codegen_module"]}
{"id": "C56", "title": "The golden tests test what they seem to test", "statement": "For case directories with names made of letters, digits and _ and with plain ASCII paths, the file written by the build script of the tests is a Rust program with exactly one test per directory, which includes the two files of that directory; if the names are distinct and all files can be read, cargo test runs each once, and if a file is missing, none at all. Such a test passes exactly if the one file is a route file of a configuration for which code can be generated and the other is the generated code, character by character; equivalently, if the builder, for the same route file, writes exactly its bytes. If only the comparison fails, the printed hunks turn the expected file into the generated one. The three shipped tests pass on every machine.", "quantifier": "every list of case directories, every pair of files, every line diff", "why_tests_cant": "The tests do not test themselves: a test that compares the wrong files, or is never run, passes.", "anchors": ["wayfinder-tests/build.rs:write_cases", "wayfinder-tests/src/diff.rs:TestResult::assert", "wayfinder-tests/src/lib.rs"]}
{"id": "C57", "title": "Reports on rejected route files are right", "statement": "Everything before a place that the report on a rejected route file shows is the beginning of an accepted route file. A message that asks for a colon, a brace, a bracket or a newline is right: with it, the text is still the beginning of an accepted route file, and it is not what stands there. Where resources or child routes are asked for, any of them, at one level of indentation, may follow; where a block of routes is said to start, any block of one level may follow. An error outside the route table means that the slash, the end of its line or the end of the file was due and something else was found. Not claimed, and false: that the place is where the first fault is.", "quantifier": "every text, every classification of non-ASCII characters as identifier characters, both ways of alt_complete! with failures", "why_tests_cant": "No test looks at the places or messages of rejected files.", "anchors": ["wayfinder/src/parse/mod.rs:route_config", "wayfinder/src/parse/errors.rs:show_errors"]}
{"id": "C58", "title": "Edits of a configuration have local effects", "statement": "If the block of one route is replaced by another, requests that do not come by this block are answered as before, and the others as the new block by itself answers the rest of their path. If a resource is added for a verb that its block had no resource for, exactly the requests with this verb that end at the block change their answer, from NotAllowed to a match of the resource; if it is the first of its block, exactly the requests that end there change. If a static child is added to a block without parameters, only requests with its text at this place can change their answer, and only those that were answered with NotFound; adding a parameter to a block without parameters and with at most one static child also changes only answers NotFound. Without these conditions on the siblings this is false: next to a parameter, a second static child takes the requests of the first away.", "quantifier": "every pair of supported configurations that differ in one block, static texts are non-empty and have no '/', as in every route file, every request", "why_tests_cant": "A regression test compares single requests before and after an edit; that all others stay the same is not testable.", "anchors": ["wayfinder/src/gen/gen.rs:codegen", "wayfinder/src/gen/trie.rs:Trie::add", "wayfinder/src/gen/flat.rs:flatten"]}
{"id": "C59", "title": "The configurations that the project ships", "statement": "The route files of the repository say what they seem to say, and the files emitted for them and for examples/structured are accepted and answer as the matcher. Whatever FromStr does, the matcher for example.routes answers all declared routes, does not panic, prefers static segments and never answers NotFound for a declared route without parameters; if FromStr for Uuid fails on texts that begin with new, its parameters capture all UUIDs, every action is recovered from its path, and NotFound means that the path is no instance of a declared route. commons.routes loses declared routes; the nesting case has all the properties. The structured example answers as example.routes does, except that GET /users redirects elsewhere.", "quantifier": "every request, every FromStr and Display behaviour, for the four shipped configurations", "why_tests_cant": "The 36 requests in the tests of the example are single cases.", "anchors": ["example.routes", "commons.routes", "wayfinder-tests/cases/nesting/routes.routes", "examples/structured/routes/mod.rs:routes"]}
{"id": "C60", "title": "Following redirects", "statement": "If the emitted file is accepted and match_route answers a request with a redirect, the value returned is one of the struct of a declared action: it has all of its fields and no others, every parameter with a value read as the type of its field; to_path is defined for it and is the route of the action with the texts of the values. A client that asks for this path with the same verb gets exactly this struct and these values if and only if the action has this verb, is the first one of its block for it, and the texts follow its route. If every target has the verb of its redirect, is the first of its block for it and is on a route that withholds nothing, a client is redirected at most once; this is so for the shipped configurations. In general it is false that redirects end: a block with GET redirected to its own POST action sends the client to the same path for ever.", "quantifier": "every accepted file, static texts are non-empty and have no '/', as in every route file, every request, every FromStr and Display behaviour", "why_tests_cant": "The tests compare the answers to single requests; no test calls to_path on a redirect or asks again.", "anchors": ["wayfinder/src/gen/gen.rs:codegen", "wayfinder/src/gen/gen.rs:codegen_module", "examples/cli/src/main.rs:main"]}
{"id": "C61", "title": "The size of match_route", "statement": "If the emitted match_route compiles, the struct literal of a resource of the root is written at most once and that of any other resource at most twice; exactly once and exactly twice if no block has two parameters as children. Besides the lines of the literals, the function has at most 47 lines for every route below the root and six more, whatever the lengths of the texts and however they share beginnings. No smaller factor would do.", "quantifier": "every configuration whose match_route compiles; for the number of lines, texts without newlines", "why_tests_cant": "That generated code does not blow up (each route is written in front of the optional slash and behind it, at every level) is a statement about all configurations; the golden files are three small ones.", "anchors": ["wayfinder/src/gen/gen.rs:codegen_trie", "wayfinder/src/gen/gen.rs:write_methods", "wayfinder/src/gen/gen.rs:write_dynamic"]}
{"id": "C62", "title": "The router of wayfinder-goal", "statement": "The file checked in as the goal of the generator is what the generator writes: apart from blanks and the changes rustfmt makes (commas at the end of lists and after blocks, braces around the value of an arm), wayfinder-goal/src/routes.rs has exactly the tokens of the file emitted for wayfinder-tests/cases/example/routes.routes, and its comment shows these routes. Its match_route answers every request as the matcher for /repo/example.routes does; for the list of people, with and without slashes at the ends, it answers GET and POST with the actions of the configuration and all other verbs with NotAllowed, as the two tests of the crate expect.", "quantifier": "every request, every FromStr behaviour, every classification of non-ASCII characters, both readings of the nom macros", "why_tests_cant": "The crate has two tests for one route; nothing compares the 828 lines with the output of the generator.", "anchors": ["wayfinder-goal/src/routes.rs:match_route", "wayfinder-goal/src/lib.rs:tests", "wayfinder/src/gen/gen.rs:codegen"]}
{"id": "C63", "title": "The answers of the examples", "statement": "The file emitted for example.routes answers every request as one table says that can be read without knowing the generator: after an optional slash, the path is cut at slashes; the verbs of the root, /users, /people, /books, their new, one and edit pages are answered with the actions and redirections of the file, other verbs there with NotAllowed, all the rest with NotFound, ids that do not parse with their error. The file emitted for examples/structured and the router of wayfinder-goal answer by the same table, the former with another target for /users. All 35 cases of the test of the CLI example and the three tests of the structured one follow, if the UUID of the tests parses.", "quantifier": "every request, every FromStr behaviour", "why_tests_cant": "The tests are 38 rows of the table.", "anchors": ["examples/cli/src/main.rs:tests", "examples/structured/src/main.rs:tests", "example.routes", "examples/structured/routes/mod.rs:routes", "wayfinder-goal/src/routes.rs:match_route"]}
{"id": "C64", "title": "The two configurations in the documentation of the crate are equivalent", "statement": "The crate documentation gives a configuration first as a route file and then as code, and calls them equivalent: the matchers generated from the two answer every request alike.", "quantifier": "every request, every FromStr behaviour", "why_tests_cant": "The route file is in a comment that no test reads; the code is only compiled.", "anchors": ["wayfinder/src/lib.rs:crate documentation", "wayfinder/src/parse/mod.rs:route_config", "wayfinder/src/core/macros.rs:routes!"]}
{"id": "C65", "title": "The parsers for pieces of a route file", "statement": "The public parsers param, path_segment and query_parameter succeed on exactly the texts of their piece followed by anything (by the end of the word, where the piece ends with a word), and give this piece. In front of a place where a piece ends (less indentation, or only blanks up to the end), resource, routes and nested_routes read exactly the texts of resources, blocks and children at the given level. A printed resource, block or child, moved to the right by any number of levels, is read back at that level, and the blanks of the line behind it are left over.", "quantifier": "every text, level and piece, every classification of non-ASCII characters, both readings of the nom macros; for printed blocks, those whose lines can be indented", "why_tests_cant": "The tests of wayfinder-tests parse 16 printed pieces at level one.", "anchors": ["wayfinder/src/parse/mod.rs:param", "wayfinder/src/parse/mod.rs:path_segment", "wayfinder/src/parse/mod.rs:query_parameter", "wayfinder/src/parse/mod.rs:resource", "wayfinder/src/parse/mod.rs:routes", "wayfinder/src/parse/mod.rs:nested_routes", "wayfinder-tests/src/lib.rs:test_routes_parse"]}
{"id": "C66", "title": "The route section line by line", "statement": "A file is accepted with a configuration exactly if it consists of the headers, a line '/' and the lines of the routes, with levels of indentation that a machine with one number accepts; the lines determine the configuration. In an accepted file the lines of one block are in the order query parameters, resources, nested routes; the line behind a segment is one level deeper, the line behind a resource is deeper only if it is one of its query parameters, and no line is at a lower level than the first. The file in the README is accepted, and its matcher answers as the one of example.routes except below /books.", "quantifier": "every text, every classification of non-ASCII characters, both readings of the nom macros", "why_tests_cant": "The language reference in the README is prose; tests parse a few files and no rejected order or indentation.", "anchors": ["README.markdown:language reference", "wayfinder/src/parse/mod.rs:route_config", "wayfinder/src/parse/mod.rs:routes", "wayfinder/src/parse/mod.rs:nested_routes"]}
{"id": "C67", "title": "Headers are any Rust code, blank lines are allowed anywhere", "statement": "As the README says: the header can be any Rust code and is passed through to the generated module; blank lines can be added anywhere.", "quantifier": "every text, every classification of non-ASCII characters, both readings of the nom macros", "why_tests_cant": "The tests have the header 'use uuid::Uuid;' and no blank line with blanks in it.", "anchors": ["README.markdown:language reference", "wayfinder/src/parse/mod.rs:header", "wayfinder/src/parse/mod.rs:route_config", "wayfinder/src/gen/gen.rs:codegen_module"]}
{"id": "C68", "title": "A route file is read in linear time", "statement": "The parser backtracks (alternatives inside repetitions inside recursion), but the number of steps it takes on a text of n characters is at most 120 n + 200, whether the text is accepted or not; routes takes at most 100 n + 16 level + 140. An accepted text takes at least n steps.", "quantifier": "every text, every level, every classification of non-ASCII characters, both readings of the nom macros", "why_tests_cant": "The tests parse small files; time that grows faster than the text would not be noticed.", "anchors": ["wayfinder/src/parse/mod.rs:route_config", "wayfinder/src/parse/mod.rs:routes", "wayfinder/src/parse/mod.rs:nested_routes", "wayfinder/src/parse/mod.rs:resources_and_routes", "wayfinder/src/parse/mod.rs:resource"]}
{"id": "C69", "title": "A path is compared as it is", "statement": "match_route gives no meaning to any byte of a path but '/': if a path that contains an ASCII character that no text of the configuration contains (in an accepted file, any but letters, digits, '_' and '/', so '?', '#', '%', '.') is answered with a match, the character stands in the text of a parameter, and this text, with the character, is what FromStr was given and accepted. If FromStr of the parameters refuses the character, such a path is answered neither with a match nor with NotAllowed; without parameters it is answered with NotFound. In particular query strings are not cut off and nothing is percent-decoded.", "quantifier": "every supported configuration, every path and verb, every FromStr behaviour", "why_tests_cant": "No test asks for a path with a query string or an encoded byte; the statement is about all of them.", "anchors": ["wayfinder/src/gen/gen.rs:codegen", "wayfinder/src/gen/gen.rs:codegen_trie", "wayfinder/src/gen/gen.rs:write_dynamic", "wayfinder/src/parse/mod.rs:is_identifier_char"]}
{"id": "C70", "title": "The old router and the new one", "statement": "The benchmark of wayfinder-goal compares the router that an earlier generator wrote (routes2.rs, which goes through characters) with the present one. What the old router answers is given by a table, for every path; on paths in UTF-8 it answers as the file that the present generator emits for the routes in its comment, unless the piece behind 'people' is empty and not the last (the old router takes the slash for a part of the id) or begins with 'n' but not with 'new' (the old router finds nothing). On such paths not below 'books' it also answers as wayfinder-goal/src/routes.rs; both tests of the benchmark pass if the UUID parses. On the other paths the two differ, and the old router panics on every path that is not UTF-8.", "quantifier": "every path and verb, every FromStr behaviour", "why_tests_cant": "The tests of the benchmark ask for one path, and are commented out.", "anchors": ["wayfinder-goal/src/routes2.rs:match_route", "wayfinder-goal/src/benches.rs:test_old", "wayfinder-goal/src/benches.rs:test_new", "wayfinder-goal/src/routes.rs:match_route", "wayfinder/src/gen/gen.rs:codegen"]}
{"id": "C71", "title": "What match_route does with FromStr", "statement": "match_route asks FromStr about a piece of the path only behind pieces that fit the beginning of a declared route, at the type of the parameter that the route has there, and passes values and errors on as they are: two behaviours of FromStr that correspond at these places lead to corresponding answers, whatever the types of values and errors. In particular the answer depends on FromStr only through the pieces of the path.", "quantifier": "every supported configuration, every path and verb, every two FromStr behaviours; for the last part static texts without '/'", "why_tests_cant": "It is a statement about two runs with different FromStr; a test has one.", "anchors": ["wayfinder/src/gen/gen.rs:codegen", "wayfinder/src/gen/gen.rs:write_dynamic"]}
{"id": "C72", "title": "What match_route does with the method", "statement": "The method is looked at once, at the end of the path: for every path, either the answer is the same for all methods (NotFound, an error or a panic), or one declared block that the path fits decides: every verb of its resources gets the match of the first of them with this verb, all with the same parameter values, and everything else NotAllowed. Methods are compared byte by byte with GET, POST, PUT and DELETE: HEAD, OPTIONS or get are never answered with a match, and with NotAllowed exactly where some verb is. The answers to methods that are no verbs are the same for any emitted function, whatever its variables are called.", "quantifier": "every supported configuration (the last sentence: every program of the generator's language), every path, all methods, every FromStr behaviour", "why_tests_cant": "It compares the answers to all methods; tests ask for one method at a time, and for none but the four verbs.", "anchors": ["wayfinder/src/gen/gen.rs:write_methods", "wayfinder/src/gen/gen.rs:codegen", "wayfinder/src/core/mod.rs:Method"]}
{"id": "C73", "title": "When two configurations answer alike", "statement": "Two programs give the same answer to every request, whatever FromStr does, exactly if their configurations have the same table: the same open routes (those that some request can follow, with the names and types of their parameters), on each of them the same verbs, and for each verb the same action or redirection of the first resource, with the same names of query parameters. So the order of siblings, later resources for a verb, the types of query parameters and everything behind closed routes cannot be seen, and all else can. The table can be computed, so the question is decidable. The one condition is that no block is empty, which is so for everything read from a route file; for trees built by hand with an empty block the statement is false.", "quantifier": "all pairs of supported configurations without empty blocks, with static texts that are non-empty and have no '/', all paths, methods and FromStr behaviours", "why_tests_cant": "It is about pairs of configurations and all requests; a test can show that two configurations differ, never that they do not.", "anchors": ["wayfinder/src/gen/gen.rs:codegen", "wayfinder/src/gen/trie.rs:insert", "wayfinder/src/gen/gen.rs:write_methods"]}
{"id": "C74", "title": "No sum computed by match_route overflows", "statement": "Every sum that a call of the emitted match_route computes (the tests `i + n > len` and `i + n <= len`, the ends of the slices `&path[i..i+n]`, `i += n`, the scanning loop) is at most the length of the path plus the length of the longest fixed segment, and the counter never leaves the path. So with slices of at most isize::MAX bytes no addition of usize overflows, and computing with natural numbers, as the model does, gives the same answers. The bound is reached.", "quantifier": "all configurations whose code compiles (whatever the parameters are called), all paths, methods and FromStr behaviours", "why_tests_cant": "An overflow would need a path or a segment near the size of the address space; no test gets there, and it would panic in debug builds and read elsewhere in release builds.", "anchors": ["wayfinder/src/gen/gen.rs:codegen_trie", "wayfinder/src/gen/gen.rs:write_dynamic"]}
{"id": "C75", "title": "When match_route calls FromStr, and what becomes of the results", "statement": "The calls of FromStr during a call of match_route are, in order, for the parameters of one route of the configuration from its beginning up to some block: each parameter once, with its declared type, and with a piece of the path as text; the pieces are different ones, in order. So there is at most one call more than the path has slashes. The first failure is the last call and is the answer, under the name of that parameter, and an answer is an error only so. If the answer is a route or a redirect, its path parameters are exactly the results of the calls, in order. Calls are also made for paths and methods to which the answer is `not found` or `not allowed`.", "quantifier": "all supported configurations (the first failure: all compiled programs), all paths, methods and FromStr behaviours", "why_tests_cant": "FromStr is user code with arbitrary cost and behaviour; tests observe the answers, not which calls were made for an arbitrary path.", "anchors": ["wayfinder/src/gen/gen.rs:write_dynamic", "wayfinder/src/gen/gen.rs:codegen_trie"]}
{"id": "C76", "title": "Actions, modules, query parameters and redirect arrows are labels", "statement": "Let a configuration be changed only behind the verbs (modules, action, own query parameters, arrow of a redirect) and in the query parameters of blocks. Then every request finds the resource at the same place with the same values of the path parameters, and where nothing is found the answer is the same; the labels are only copied into the answer. The changed configuration is accepted exactly if no struct gets two fields of the same name. So renaming actions and modules, and making routes redirects or the other way round, is always accepted by match_route and replaces the targets in the answers only; dropping all query parameters is always accepted and drops the None fields only. Renaming a query parameter to a path parameter below it is not accepted.", "quantifier": "all supported configurations, all exchanges of labels, all paths, methods and FromStr behaviours", "why_tests_cant": "Relates the answers of two generated programs for all requests, for all configurations and all renamings.", "anchors": ["wayfinder/src/gen/gen.rs:codegen", "wayfinder/src/gen/gen.rs:write_dynamic", "wayfinder/src/core/mod.rs:Resource"]}
{"id": "C77", "title": "Every way through match_route ends in a return; what rustc calls unreachable", "statement": "The emitted match_route passes rustc's check of control flow whenever the other checks pass: every way through the function returns, the expression at the end of every block has the type wanted there, and every match has an arm for all other values. A function that passes never falls off its end, for any request and any values of its variables. The lints unreachable_code and unreachable_patterns (which the emitted file does not switch off) report something exactly if a block of the configuration for which code is emitted has two resources for the same verb.", "quantifier": "all configurations whose emitted match_route passes the checks of shape and types; for the meaning of the check: all programs of the emitted language, all requests", "why_tests_cant": "The check is made for every generated program; tests compile the few that are checked in.", "anchors": ["wayfinder/src/gen/gen.rs:codegen_trie", "wayfinder/src/gen/gen.rs:write_methods", "wayfinder/src/gen/gen.rs:write_dynamic"]}
{"id": "C78", "title": "When a configuration grows, the declarations that were there stay", "statement": "Resources and children are added to a configuration (anywhere; what was there keeps its order), and the emitted file is accepted before and after. Then every struct of the old file is found in the new file in the same module, with the same fields and the same to_path, and every enum has its old variants. What the new file declares besides belongs to the added actions. If two configurations have the same headers and the same actions, the text of the declarations is the same, so redirects, empty blocks and the order of blocks do not influence it. Adding a query parameter to a block does change existing structs, and a configuration can grow into one whose names clash.", "quantifier": "all pairs of configurations, one grown from the other", "why_tests_cant": "Relates two runs of the generator for all configurations and all extensions; tests look at single configurations.", "anchors": ["wayfinder/src/gen/gen.rs:codegen_module", "wayfinder/src/gen/flat.rs:FlattenedModules", "wayfinder/src/gen/flat.rs:finalize"]}
{"id": "C79", "title": "Lines inserted into a route file have local effects", "statement": "The lines of a child (or of a resource) are inserted into the text of an accepted route file, at a level that is open there and before a line that is not deeper. Then the new file is accepted, and its configuration is the old one with the child (the resource) added to one block: the one whose route consists of the last segments of lower levels before the place. Conversely the edited file is accepted only if the level is open. With a resource for a verb that the block had no resource for, exactly the requests with this verb that end at the block change their answer, from NotAllowed. In the middle of a block this is false: an inserted child takes the resources below it away, an inserted resource takes the query parameters below it away, and the file is accepted without notice.", "quantifier": "every accepted text, every place between two of its lines, every inserted child or resource in every spelling, every request", "why_tests_cant": "Route files are edited as text; tests parse complete files, and never compare the file before and after an edit.", "anchors": ["wayfinder/src/parse/mod.rs:routes", "wayfinder/src/parse/mod.rs:resource", "wayfinder/src/parse/mod.rs:nested_routes", "wayfinder/src/gen/gen.rs:codegen"]}
{"id": "C80", "title": "When links and redirects stay on the site", "statement": "The path that to_path returns, and the path a redirect leads to, begins with one slash, so that it is a reference to the same host (RFC 3986, 4.2), exactly unless the route of the named action begins with a parameter, and the text of its value begins with a slash, or is empty while the route goes on. So a redirect stays on the site if the texts of its values are not empty and do not begin with a slash, and always if no redirect names an action whose route begins with a parameter, as in the shipped configurations. In general it is false: with a redirect from go/{user}/{page} to {user}/{page} a request for /go//evil.example is redirected to //evil.example, which is another host.", "quantifier": "every accepted configuration, every world of types and texts of values, every request", "why_tests_cant": "Tests follow redirects with ordinary values; a request with an empty segment in front of a host name is not among them.", "anchors": ["wayfinder/src/gen/gen.rs:codegen_module", "wayfinder/src/gen/gen.rs:write_methods", "examples/cli/src/main.rs:main"]}
{"id": "C81", "title": "Route files that end too early", "statement": "An accepted route file, each of whose route lines is written on one line, is cut at any place, as by an interrupted copy or by a build that runs while the file is written. What is left is accepted with a configuration exactly if this one has the same headers and its routes are a beginning of those of the whole file, up to the end of a resource or of one of its query parameters, whose lines are there completely. Between two lines this is the case exactly if the last line is a resource or a query parameter behind one. The beginning declares the same, in the same order, up to one resource, the last one, which may have fewer query parameters of its own. A route line written on two lines breaks this: of GET Users, newline, ::Show the first half is accepted as another action.", "quantifier": "every accepted text, every place to cut it, every reading of the parser's configuration", "why_tests_cant": "Tests parse complete files; a file is cut at as many places as it has characters.", "anchors": ["wayfinder/src/parse/mod.rs:route_config", "wayfinder/src/parse/mod.rs:routes", "wayfinder/src/parse/mod.rs:resource", "wayfinder/src/parse/mod.rs:nested_routes", "wayfinder/src/parse/mod.rs:target"]}
{"id": "C82", "title": "When links coincide", "statement": "Links to two actions, made by the emitted to_path from values whose texts have no slashes, coincide exactly if the routes with these values read the same segment by segment, or one route is the root and the other a single parameter with an empty text. If different values have different texts, links to one action with different values are different. If every word is the text of a value, some links to two actions coincide exactly if their routes have the same number of segments and agree wherever both are fixed. The query parameters do not matter. Texts with slashes break this: the page z of the user x/y and the page y/z of the user x have the same link.", "quantifier": "every clean and supported configuration, every two declared actions, all values and texts shown for them", "why_tests_cant": "Tests print a few links; that no two of them are the same is about all pairs of values and routes.", "anchors": ["wayfinder/src/gen/gen.rs:codegen_module", "wayfinder/src/gen/gen.rs:codegen"]}
{"id": "C83", "title": "Mount points with slashes", "statement": "The API takes any text as a mount point. Mounted at a text with slashes, a configuration answers as if it were inside blocks inside each other, one for each part, for every path, method and FromStr, exactly if the root of the base has no parameter or also has static children. The links to its actions are the same in both cases. It gets the requests whose paths begin with the text. Mounted at a text that begins with a slash, as in mount(\"/people\", ...), it changes no answer for a path that does not begin with two slashes, so /people stays not found, and the links to its actions begin with two slashes, which names another host. No route file says any of this.", "quantifier": "every base and mounted configuration that are supported, every mount point, path, method and FromStr", "why_tests_cant": "Tests mount at words; what happens to the others is about all texts.", "anchors": ["wayfinder/src/core/mod.rs:mount", "wayfinder/src/gen/gen.rs:codegen_trie", "wayfinder/src/gen/flat.rs:iter"]}
{"id": "C84", "title": "When mounting breaks the build", "statement": "The generator accepts a mounted configuration exactly if it accepts the base and the mounted one (or they are empty), no static child of the base's root has the text of the mount point, and no action of the two has the same module path and name. The emitted function then compiles exactly if the mounted one's does, the mount point is ASCII that can be written in a byte string, no static child of the root begins it or is begun by it, next to a parameter all of them begin with the same character, and no action of the mounted configuration has a field named like a query parameter of the base's root. If moreover the mounted actions are in modules of their own and their types and names do not clash with what they inherit, the whole emitted file is accepted.", "quantifier": "every pair of configurations and every mount point", "why_tests_cant": "Tests mount one configuration at one place; the conditions concern all pairs.", "anchors": ["wayfinder/src/core/mod.rs:mount", "wayfinder/src/gen/gen.rs:codegen_trie", "wayfinder/src/gen/flat.rs:FlattenedModules"]}
{"id": "C85", "title": "Imports of headers and types of parameters", "statement": "If all headers are imports, a reader of the emitted file that knows nothing of the headers, but reads imports at the beginning of every module and checks names, accepts the file exactly if it is accepted without regard to imports and the imports suit the configuration: no name is imported twice, is declared or is named by the emitted code, no crate is named like a module, and the type of every parameter of every action is imported or built in \u2014 no matter in which module, because every module begins with the imports of all headers. When configurations are mounted, the merged headers are imports of all their names, none twice exactly if different headers import different names, and they suit the whole exactly if they suit both parts and the query parameters inherited.", "quantifier": "every configuration whose headers are imports; every list of configurations mounted", "why_tests_cant": "Whether a name is in scope depends on the headers, on all names in the configuration and on what is mounted; a test has one of each.", "anchors": ["wayfinder/src/gen/gen.rs:codegen_module", "wayfinder/src/core/mod.rs:mount"]}
{"id": "C86", "title": "Splitting a configuration into mounted parts", "statement": "If blocks at the root of a configuration are moved into configurations of their own and mounted where they were, in any order, and these again are split up, then generation ends in the same way, and with the same headers the emitted file is the same line by line except for the comment that shows the configuration; so it is accepted exactly if the other is and the programs do the same. Mounting in another order permutes the headers at most.", "quantifier": "every configuration, every way of splitting it up and every order of mounting", "why_tests_cant": "A test compares one application with one way of splitting it up.", "anchors": ["wayfinder/src/core/mod.rs:mount", "wayfinder/src/gen/gen.rs:codegen", "wayfinder/src/gen/flat.rs:FlattenedModules"]}
{"id": "C87", "title": "What the types of parameters must implement", "statement": "Rustc finds all implementations that an accepted file needs (for the derives of the structs, for format! in to_path and for text.parse() in match_route) exactly if the types of all parameters of actions are Debug, PartialEq and Eq, those of path parameters are Display, and those of the fields for which path parameters are used are FromStr with a Debug error where there is code for the route. Nothing is asked of the types that only occur in redirects.", "quantifier": "every configuration whose file is accepted, every assignment of traits to types in which usize is FromStr", "why_tests_cant": "A test compiles one file with types that have all traits.", "anchors": ["wayfinder/src/gen/gen.rs:codegen_module", "wayfinder/src/gen/gen.rs:write_dynamic"]}
{"id": "C88", "title": "The emitted file is indented as its brackets nest", "statement": "Every line of the emitted file is indented by four spaces for every line above whose brackets are still open, the closing brackets at the beginning of a line close all that one earlier line has left open, brackets match in kind, no string runs over the end of a line, and all brackets are closed at the end. This holds exactly if the generator has not put statements in the place of an arm, hence for every accepted file.", "quantifier": "every configuration whose words are words of Rust and whose headers are single lines with balanced brackets", "why_tests_cant": "Golden files fix the layout of a few configurations; the indentation counters are passed through three recursive functions.", "anchors": ["wayfinder/src/gen/gen.rs:codegen_module", "wayfinder/src/gen/gen.rs:codegen_trie", "wayfinder/src/gen/gen.rs:write_methods", "wayfinder/src/gen/gen.rs:write_dynamic"]}
{"id": "C89", "title": "When the emitted file compiles, everything together", "statement": "The file that a build has written is UTF-8, can be read as Rust with its imports, has all implementations it needs and returns on every way through match_route exactly if the configuration satisfies nine conditions: on blocks, on uses of parameters, on four kinds of names, on redirects, on imports and on types. Then the compiled match_route gives every request the one answer that the configuration prescribes. If the imported types have all traits it is enough that the file can be read.", "quantifier": "every route file whose words are words of Rust and whose headers are imports, no parameter named len, nor start with a parameter behind it; every assignment of traits to types; every request", "why_tests_cant": "A test compiles one file; which conditions together are sufficient can only be said for all configurations.", "anchors": ["wayfinder/src/gen/gen.rs:codegen", "wayfinder/src/build/mod.rs:Builder::build", "wayfinder/src/parse/mod.rs:route_config"]}
{"id": "C90", "title": "The size of the emitted file", "statement": "The emitted file has exactly 121 lines, a line for every item of the configuration, 13 lines for every action and one for each of its fields (and two if there are any), 17 lines for every module, the headers once for every module and once more, and the lines of match_route (bounded by C61). A further header costs one copy of itself for every module. So the size is not linear: for all a and b some configuration of n characters is generated with more than a + b n lines.", "quantifier": "every configuration without newlines in its texts that generation accepts, headers of any number of lines; for the last part all pairs of numbers", "why_tests_cant": "Tests compare two files of fixed size; the formula and the failure of every linear bound are statements about all configurations.", "anchors": ["wayfinder/src/gen/gen.rs:codegen_module", "wayfinder/src/gen/gen.rs:codegen", "wayfinder/src/gen/flat.rs:finalize"]}
{"id": "C91", "title": "Equality of results and of their texts", "statement": "The derived PartialEq of the emitted types says that two results of match_route are equal exactly if they are the same kind of answer, for the same action in the same modules, with equal values for the same parameters. If the Debug text of a value shows which value of its type it is and where it ends, then the {:?} text of a result determines the result: two results have the same text exactly if they are the same (errors: the same parameter and the same text of the parse error). So assert_eq! on two results fails exactly if the two texts it shows differ. Without the condition on the texts of values two different results can have the same text.", "quantifier": "every accepted file of a configuration with plain static texts and no parameter named len, or start with a parameter behind it; all pairs of requests; all types, comparisons and texts of values", "why_tests_cant": "Tests compare a few results of one file; that no two results of any file share a text is a statement about all pairs of requests to all files.", "anchors": ["wayfinder/src/gen/gen.rs:codegen_module", "wayfinder/src/gen/gen.rs:codegen", "wayfinder/src/gen/gen.rs:codegen_trie"]}
{"id": "C92", "title": "Actions that no request leads to", "statement": "Which actions and redirects match_route can return at all, for any types of the parameters and any request, can be computed from the configuration: those that are first for their verb in a block on a route whose static segments have no parameter siblings or no other static ones, and whose parameters are alphabetically first among their siblings. So the dead actions of a configuration can be listed exactly. rustc does not report them, except second resources for a verb: three of the four actions of commons.routes are dead, the examples have none.", "quantifier": "every supported configuration with plain static texts; all types of parameters, all requests", "why_tests_cant": "That no request is answered with an action cannot be tested; the tests of the project include commons.routes and do not notice its dead actions.", "anchors": ["wayfinder/src/gen/gen.rs:codegen_trie", "wayfinder/src/gen/gen.rs:write_methods", "wayfinder/src/gen/gen.rs:write_dynamic", "wayfinder/src/gen/flat.rs:to_trie"]}
{"id": "C93", "title": "How deeply match_route nests", "statement": "The lines of match_route are indented by at most 20 columns, and 12 more for every sibling of a segment on the way to a route: neither the number of segments nor the lengths of the texts nor the number of routes elsewhere matter. A configuration in which no block has two children gives a flat function. The nesting does grow with the siblings, by two levels for every route of a family of any size; a configuration of three static segments beside parameters reaches the bound.", "quantifier": "every configuration whose code is generated and compiles and whose names are names in Rust; for the growth all n", "why_tests_cant": "Golden tests show a few small files; depth is a property of all of them, and a change of the generator that nests every segment would be seen only by the tests it breaks.", "anchors": ["wayfinder/src/gen/gen.rs:codegen_trie", "wayfinder/src/gen/gen.rs:write_methods", "wayfinder/src/gen/gen.rs:write_dynamic"]}
{"id": "C94", "title": "Which words have to be names of Rust", "statement": "The generator copies words of the configuration into the file without comparing them with the keywords of Rust. Whatever the words are, the emitted file can be read exactly if the words that are written as names are names and the blocks have the shape for which statements are emitted in their places: the names and types of an action on whatever route, the names of redirects and of parameters for which code is emitted. Types on routes that have only redirects are not written and may be anything. An action called _, or in a module called _, of which to_caps_case leaves nothing, always gives a file that cannot be read. For a configuration that was read from a file, without redirects and without parameters named like the variables of match_route, acceptance of the file needs all its words to be names, so that the conditions under which the file is accepted are known without any assumption on words. A parameter named type is generated and gives a file that cannot be read.", "quantifier": "every configuration whose code is generated, whose headers are complete lines and whose words consist of letters, digits and underscores, in ASCII or beyond; for the last part every configuration that was read from a route file", "why_tests_cant": "The route files of the tests use ordinary words; that every other word reaches a declaration or an expression, and where, is a statement about all configurations.", "anchors": ["wayfinder/src/gen/gen.rs:codegen_module", "wayfinder/src/gen/gen.rs:write_methods", "wayfinder/src/gen/gen.rs:write_dynamic", "wayfinder/src/gen/gen.rs:to_caps_case", "wayfinder/src/gen/gen.rs:to_snake_case"]}
{"id": "C95", "title": "Braces in static texts", "statement": "The text of a static segment is copied into a pattern of match_route, where a brace is a brace, and into the template of format! in to_path, where every brace is doubled and printed single or holds the place of an argument, with one place for each. For names of Rust and texts without quotes and backslashes the emitted file is accepted exactly if the conditions of C49 hold and on the routes of actions all braces are doubled. The link of an action then has a single brace for every pair. Requesting the link gives the same struct exactly if the route has no braces at all and the condition of C50 holds, so that the links of routes with braces never lead back. A route {{ is answered when requested with two braces; its link is /{, which is not found. A route with one brace, or with {}, is generated without complaint and the file is rejected.", "quantifier": "every configuration whose code is generated, whose headers are complete lines and whose words are names of Rust; every action on it, all values; for the way back texts that are non-empty and free of slashes, and parameters not named like the variables of match_route", "why_tests_cant": "The grammar of route files has no braces in texts, so that no test reaches the case; the configurations are made with the API, and the claim is about all of them.", "anchors": ["wayfinder/src/gen/gen.rs:codegen_module", "wayfinder/src/gen/gen.rs:codegen_trie", "wayfinder/src/gen/flat.rs:flatten"]}
{"id": "C96", "title": "When the emitted file is accepted, for any words", "statement": "For words of letters, digits and underscores, in ASCII or beyond, which may be keywords or numbers, and texts without quotes and backslashes, the emitted file is accepted exactly if the words that are written as names are names, the braces on the routes of actions are doubled, and the conditions of C49 hold. In an accepted file match_route gives every request the one answer that the configuration with the types of the fields prescribes, links have the texts of the route, and lead back under the condition of C95. So for a build from a route file it is known when the bytes written are accepted and what they then do, without assuming that its words are names of Rust; the parameters named start and len are excepted as said below. Redirects on routes with parameters of a type that is no name, such as fn, are accepted: the type is not written, and the parameter is read as the target has it. Texts of letters beyond ASCII pass the parser, where it counts them as letters, and the generator; the file is rejected if code is emitted for their route, while on a route without code they do no harm.", "quantifier": "every configuration with such words whose code is generated and whose headers are complete lines; every machine, builder and route file; every request, all values, every FromStr and Display behaviour; for acceptance, a parameter named start with a parameter behind it has on the route of a redirect the type of the target; for the answers, no parameter is named len, nor start with a parameter behind it", "why_tests_cant": "The conditions concern all words at once, and that they are enough for every configuration is not seen from files that happen to compile.", "anchors": ["wayfinder/src/gen/gen.rs:codegen", "wayfinder/src/gen/gen.rs:codegen_module", "wayfinder/src/gen/gen.rs:codegen_trie", "wayfinder/src/gen/gen.rs:write_methods", "wayfinder/src/gen/gen.rs:write_dynamic", "wayfinder/src/build/mod.rs:build"]}
{"id": "C97", "title": "A function that compiles answers every request with values of the declared types", "statement": "The emitted match_route answers requests exactly if it compiles: in a function that passes the checks of types and control flow no variable is missing, used with another type or assigned to although it is immutable, and no match is without an arm. This includes functions with parameters named len or start, whose variables are hidden. What is returned is the struct of a resource for which code is emitted and whose verb is the method of the request; its fields are the path parameters in the order of the path with values of their declared types, and its query parameters are None.", "quantifier": "every configuration, whatever its parameters are called; every request path and method; every FromStr behaviour in which the values of usize are integers", "why_tests_cant": "The names of parameters and of variables of the function meet in one scope, and a test sees only the names it was written with.", "anchors": ["wayfinder/src/gen/gen.rs:codegen", "wayfinder/src/gen/gen.rs:codegen_trie", "wayfinder/src/gen/gen.rs:write_methods", "wayfinder/src/gen/gen.rs:write_dynamic"]}
{"id": "C98", "title": "A parameter called start gets nothing wrong but its own value", "statement": "In front of every parameter match_route declares a variable start, which hides a parameter of that name captured before. Whatever the parameters are called, as long as the function compiles and none is called len, every request is answered as the configuration says: not found, not allowed, errors of parameters and panics are the same, a match is of the same resource, and all its fields hold what was parsed, but that a field called start may hold the position of a segment of the path instead, just behind a slash. Examples show that it does hold the position where a later parameter was captured, or where the static sibling of one was found.", "quantifier": "every configuration whose function compiles and in which no parameter for which code is emitted is called len; every request path and method; every FromStr behaviour", "why_tests_cant": "That one unlucky name spoils one field and nothing else is a claim about all configurations with that name and all requests.", "anchors": ["wayfinder/src/gen/gen.rs:codegen_trie", "wayfinder/src/gen/gen.rs:write_dynamic", "wayfinder/src/gen/gen.rs:write_methods"]}
{"id": "C99", "title": "A parameter called len matters only to requests that give it a number", "statement": "The variable len of match_route holds the length of the path, and a parameter of that name hides it. Whatever the parameters are called, as long as the function compiles, a request is answered as the configuration says, but for a field called start, unless a beginning of its path is an instance of a declared route that ends in a parameter called len. If no parameter is behind one called start, the field is right as well. In that case a wrong answer means that there is a declared parameter len of type usize and that the path has in its place a segment that parses as one. A configuration with /files/{len} beside /people/{id} answers every path that does not begin with files as it should; /files/17 panics and /files/8/more is answered although it has no route.", "quantifier": "every configuration whose function compiles; every request path and method; every FromStr behaviour", "why_tests_cant": "The claim separates the requests that a hidden variable affects from those that it does not, for all configurations; a test of either kind says nothing about the others.", "anchors": ["wayfinder/src/gen/gen.rs:codegen_trie", "wayfinder/src/gen/gen.rs:write_dynamic", "wayfinder/src/gen/gen.rs:write_methods", "wayfinder/src/gen/gen.rs:codegen"]}
{"id": "C100", "title": "What an accepted file answers, whatever its parameters are called", "statement": "C96 says what an accepted file answers if no parameter is called len, nor start with a parameter behind it. Without that condition: an accepted file answers every request, whatever its words; a request whose path does not pass through a parameter called len is answered as the configuration with the types of the fields says, but that a field called start may hold the position of a segment; and exactly so if no parameter is behind one called start. The same holds for the bytes that a build from a route file writes.", "quantifier": "every configuration whose code is generated, whose headers are complete lines and whose words consist of letters, digits and underscores; every machine, builder and route file; every request; every FromStr behaviour, for the first part such that values of usize are integers", "why_tests_cant": "Acceptance, hidden variables and answers meet in one file; tests compile a few files and ask a few paths.", "anchors": ["wayfinder/src/gen/gen.rs:codegen", "wayfinder/src/gen/gen.rs:codegen_trie", "wayfinder/src/gen/gen.rs:write_dynamic", "wayfinder/src/build/mod.rs:build"]}
