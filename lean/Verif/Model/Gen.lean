import Verif.Model.Flat
import Verif.Model.Rust
/-!
# Model of `/repo/wayfinder/src/gen/gen.rs` (code generation)
-/

namespace Wayfinder

/-- Ways in which `codegen` does not return `Ok`. -/
inductive GenFail where
  /-- panic "Duplicate controller action" / `unwrap` on `None` (`flat.rs:215-217`) -/
  | duplicateAction
  /-- panic: `stringified_config.len() - 8` underflows on an empty configuration (`gen.rs:303`) -/
  | emptyConfig
  /-- panic "all paths should be unique!" (`flat.rs:106-107`) -/
  | duplicatePath
  /-- `Err(InvalidInput)` (`gen.rs:800-805`) -/
  | invalidInput
  /-- assertion "there must be a dynamic or we did something wrong" (`gen.rs:635-638`) -/
  | noDynamic
  /-- model only: recursion bound exceeded (never happens, see `Props/Generation.lean`) -/
  | fuel
deriving DecidableEq, Repr

/-! ## The body of `match_route` -/

/-- `gen.rs:716-755`: the arms for the resources of a route. -/
def methodArms (route : FlattenedRoute) : List MethodArm :=
  route.resources.map fun r =>
    { method := r.method, isRedirect := r.isRedirect, modules := r.modules, name := r.name,
      captures := dynamics route.path,
      nones := route.queryParameters.map Param.name ++ r.queryParameters.map Param.name }

/-- `gen.rs:704-762` `write_methods`. -/
def writeMethods (route : FlattenedRoute) : List Stmt :=
  [.ifThen .iEqLen [.matchMethod (methodArms route)]]

/-- `gen.rs:489-493`: methods of the node itself, if it has any. -/
def ownMethods (data : Option FlattenedRoute) : List Stmt :=
  match data with
  | some route => if route.resources.length ≠ 0 then writeMethods route else []
  | none => []

/-- `gen.rs:506-515`: what is checked before the separator. -/
def separatorHead (data : Option FlattenedRoute) : List Stmt :=
  match data with
  | some route =>
    if route.resources.length ≠ 0 then writeMethods route
    else [.ifThen .iEqLen [.retNotFound]]
  | none => [.ifThen .iEqLen [.retNotFound]]

/-- Byte length of a string (`String::len`). -/
def utf8Len (s : Str) : Nat := (s.map Char.utf8Size).sum

/-- `gen.rs:529-544`: follow single static children; returns the accumulated text and the node
reached.  `fuel` bounds the number of turns. -/
def staticChain : Nat → Str → RouteTrie → Str × RouteTrie
  | 0, acc, t => (acc, t)
  | fuel + 1, acc, t =>
    match t.children with
    | [(.static ch, t')] => staticChain fuel (acc ++ [ch]) t'
    | _ => (acc, t)

/-- Is this key a separator? -/
def Charlike.isSep : Charlike → Bool
  | .separator => true
  | _ => false

/-- `gen.rs:608-616`: the static children of a node. -/
def staticOptions (cs : List (Charlike × RouteTrie)) : List (Char × RouteTrie) :=
  cs.filterMap fun
    | (.static ch, t) => some (ch, t)
    | _ => none

/-- `gen.rs:592-627`: the longest run of single static options, `(s, l, t)`. -/
def unambiguousPrefix : Nat → Str → Nat → RouteTrie → Str × Nat × RouteTrie
  | 0, s, l, t => (s, l, t)
  | fuel + 1, s, l, t =>
    if t.children.any (fun c => c.1.isSep) then (s, l, t)
    else
      match staticOptions t.children with
      | [(ch, t')] => unambiguousPrefix fuel (s ++ [ch]) (l + 1) t'
      | _ => (s, l + 1, t)

/-- `gen.rs:577-580`: the first dynamic child. -/
def findDynamic : List (Charlike × RouteTrie) → Option (Str × RouteTrie)
  | [] => none
  | (.dynamic name, t) :: _ => some (name, t)
  | _ :: cs => findDynamic cs

/-- `gen.rs:781-797`: what `write_dynamic` emits before the code `body` of the recursive call.
The inferred type is not part of the text. -/
def dynamicHead (name : Str) (body : List Stmt) : List Stmt :=
  [.blank, .whileScan, .blank, .letText, .letParam name (inferType name body), .blank]

/-- `gen.rs:800-805`: "must be followed by a separator". -/
def followedBySeparator (t : RouteTrie) : Bool :=
  match t.children with
  | [(.separator, _)] => true
  | _ => false

/-- `gen.rs:765-810` `write_dynamic`, given the code generated for the node by the recursive call
of line 807. -/
def writeDynamic (gen : RouteTrie → Except GenFail (List Stmt)) (name : Str) (t : RouteTrie) :
    Except GenFail (List Stmt) :=
  if followedBySeparator t then
    match gen t with
    | .error e => .error e
    | .ok body => .ok (dynamicHead name body ++ body)
  else .error .invalidInput

/-- `gen.rs:674-695`: the arms of an ambiguous match. -/
def ambiguousArms (gen : RouteTrie → Except GenFail (List Stmt)) :
    List (Charlike × RouteTrie) → Except GenFail (List Arm)
  | [] => .ok []
  | (.static c, t) :: cs =>
    match gen t with
    | .error e => .error e
    | .ok body =>
      match ambiguousArms gen cs with
      | .error e => .error e
      | .ok arms => .ok (.bytes [c] (.addI 1 :: body) :: arms)
  | (.dynamic p, t) :: _ =>
    match writeDynamic gen p t with
    | .error e => .error e
    | .ok body => .ok [.stray body]      -- `break`
  | (.separator, _) :: cs =>
    match ambiguousArms gen cs with
    | .error e => .error e
    | .ok arms => .ok (.someSlash :: arms)

/-- `gen.rs:500-573`: a node with exactly one child. -/
def genSingle (gen : RouteTrie → Except GenFail (List Stmt)) (fuel : Nat)
    (segment : Charlike) (child : RouteTrie) : Except GenFail (List Stmt) :=
  match segment with
  | .separator =>
    match gen child with
    | .error e => .error e
    | .ok body =>
      .ok (separatorHead child.data
        ++ [.matchPath 1 [.bytes c!"/" [.addI 1], .wildNotFound]] ++ body)
  | .static ch =>
    let (unambiguous, child') := staticChain fuel [ch] child
    let matchLen := utf8Len unambiguous
    match gen child' with
    | .error e => .error e
    | .ok body =>
      .ok ([.ifThen (if matchLen = 1 then .iEqLen else .iAddGtLen matchLen) [.retNotFound],
            .matchPath matchLen [.bytes unambiguous [.addI matchLen], .wildNotFound]] ++ body)
  | .dynamic name =>
    match writeDynamic gen name child with
    | .error e => .error e
    | .ok body => .ok (.letStart :: body)

/-- `gen.rs:575-701`: a node with several children. -/
def genMulti (gen : RouteTrie → Except GenFail (List Stmt)) (fuel : Nat)
    (t : RouteTrie) : Except GenFail (List Stmt) :=
  let dynamic := findDynamic t.children
  let startPart : List Stmt := if dynamic.isSome then [.blank, .letStart, .blank] else []
  let (unambiguous, l, next) := unambiguousPrefix fuel [] 0 t
  let matchLen := if l = 0 then 1 else l
  if unambiguous ≠ [] then
    match dynamic with
    | none => .error .noDynamic
    | some (name, dynChild) =>
      match gen next with
      | .error e => .error e
      | .ok body =>
        match writeDynamic gen name dynChild with
        | .error e => .error e
        | .ok dynBody =>
          .ok (startPart
            ++ [.ifThen (if matchLen = 1 then .iLeLen else .iAddLeLen matchLen)
                  [.matchPath matchLen
                    [.bytes unambiguous (.addI matchLen :: body), .wildNothing]]]
            ++ dynBody)
  else
    match ambiguousArms gen t.children with
    | .error e => .error e
    | .ok arms =>
      .ok (startPart
        ++ [.ifThen .iEqLen [.retNotFound], .matchPath 1 (arms ++ [.wildNotFound])])

/-- `gen.rs:474-702` `codegen_trie` (the indentation argument only affects printing). -/
def codegenTrie : Nat → RouteTrie → Except GenFail (List Stmt)
  | 0, _ => .error .fuel
  | fuel + 1, t =>
    match t.children with
    | [] => .ok (ownMethods t.data ++ [.retNotFound])
    | [(segment, child)] =>
      match genSingle (codegenTrie fuel) fuel segment child with
      | .error e => .error e
      | .ok body => .ok (ownMethods t.data ++ body)
    | _ =>
      match genMulti (codegenTrie fuel) fuel t with
      | .error e => .error e
      | .ok body => .ok (ownMethods t.data ++ body)

/-- The emitted body of `match_route` for a configuration (`gen.rs:465`). -/
def matcherBody (r : Routes) : Except GenFail (List Stmt) :=
  match toTrie r with
  | none => .error .duplicatePath
  | some t => codegenTrie t.depth t

/-! ## Text of the generated module -/

/-- Text written so far and, if generation stopped, why. -/
structure Out where
  text : Str
  fail : Option GenFail := none

/-- Sequencing of writes: nothing is written after a failure. -/
def Out.andThen (a b : Out) : Out :=
  match a.fail with
  | some _ => a
  | none => ⟨a.text ++ b.text, b.fail⟩

/-- Successful write of some text. -/
def Out.write (s : Str) : Out := ⟨s, none⟩

/-- `gen.rs:82-102`, `gen.rs:159-179`: the printed path of an action after the leading `/`;
`dyn` prints a parameter, and the final separator is omitted. -/
def renderPath (dyn : Str → Str) : List Charlike → Str
  | [] => []
  | .static s :: rest => s :: renderPath dyn rest
  | .dynamic p :: rest => dyn p ++ renderPath dyn rest
  | .separator :: [] => []
  | .separator :: rest => '/' :: renderPath dyn rest

/-- `gen.rs:157-181`: the format string of `to_path`, between the quotes. -/
def FlattenedAction.template (a : FlattenedAction) : Str :=
  c!"/" ++ renderPath (fun _ => c!"{}") (charlikes a.path)

/-- `gen.rs:137-155`: the variables bound by `let Struct { ref x, … } = self;`. -/
def FlattenedAction.bound (a : FlattenedAction) : List Str :=
  a.routeParameters.map Param.name ++ a.queryParameters.map Param.name

/-- `gen.rs:183-185`: the variables passed to `format!`. -/
def FlattenedAction.formatArgs (a : FlattenedAction) : List Str := a.routeParameters.map Param.name

/-- `gen.rs:79-192`: struct and `to_path` of one action. -/
def renderAction (k : Nat) (a : FlattenedAction) : Str :=
  let caps := toCapsCase a.name
  let noParams := a.routeParameters.isEmpty && a.queryParameters.isEmpty
  line k (c!"/// Renders for `" ++ a.method.display ++ c!" /"
      ++ renderPath (fun p => c!"{" ++ p ++ c!"}") (charlikes a.path) ++ c!"`.")
  ++ line k c!"#[derive(Debug, PartialEq, Eq)]"
  ++ (if noParams then line k (c!"pub struct " ++ caps ++ c!";")
      else
        line k (c!"pub struct " ++ caps ++ c!" {")
        ++ (a.routeParameters.map fun p =>
              line (k + 1) (c!"pub " ++ p.name ++ c!": " ++ p.typ ++ c!",")).flatten
        ++ (a.queryParameters.map fun p =>
              line (k + 1) (c!"pub " ++ p.name ++ c!": Option<" ++ p.typ ++ c!">,")).flatten
        ++ line k c!"}")
  ++ c!"\n"
  ++ line k (c!"impl " ++ caps ++ c!" {")
  ++ line (k + 1) c!"/// Make a path to this route with the given parameters."
  ++ line (k + 1) c!"pub fn to_path(&self) -> String {"
  ++ (if noParams then []
      else line (k + 2) (c!"let " ++ caps ++ c!" { "
        ++ (a.bound.map fun x => c!"ref " ++ x ++ c!", ").flatten
        ++ c!"} = self;"))
  ++ line (k + 2) (c!"format!(\"" ++ a.template ++ c!"\""
        ++ (a.formatArgs.map fun x => c!", " ++ x).flatten ++ c!")")
  ++ line (k + 1) c!"}"
  ++ line k c!"}"
  ++ c!"\n"

/-- `gen.rs:203-273`: the `Route` enum of a module. -/
def renderRouteEnum (k : Nat) (name : Str) (actions : List FlattenedAction)
    (modules : List FlattenedModule) : Str :=
  (if k = 1 then line k c!"/// An active route in the application -- match against this."
   else line k (c!"/// Parameters for requests to the " ++ toSnakeCase name ++ c!" controller."))
  ++ line k c!"#[derive(Debug, PartialEq, Eq)]"
  ++ line k c!"pub enum Route {"
  ++ (actions.map fun a =>
        line (k + 1) (toCapsCase a.name ++ c!"(" ++ toCapsCase a.name ++ c!"),")).flatten
  ++ (modules.map fun m =>
        line (k + 1) (toCapsCase m.name ++ c!"(" ++ toSnakeCase m.name ++ c!"::Route),")).flatten
  ++ line k c!"}"
  ++ c!"\n"
  ++ line k c!"impl Route {"
  ++ line (k + 1) c!"/// Make a path to this route with the given parameters."
  ++ line (k + 1) c!"pub fn to_path(&self) -> String {"
  ++ line (k + 2) c!"match self {"
  ++ (actions.map fun a =>
        line (k + 3) (c!"Route::" ++ toCapsCase a.name ++ c!"(ref route) => route.to_path(),")).flatten
  ++ (modules.map fun m =>
        line (k + 3) (c!"Route::" ++ toCapsCase m.name ++ c!"(ref route) => route.to_path(),")).flatten
  ++ line (k + 2) c!"}"
  ++ line (k + 1) c!"}"
  ++ line k c!"}"

/-- `gen.rs:70-77`: header lines. -/
def renderHeaders (k : Nat) (headers : List Header) : Str :=
  (headers.map fun h => line k h.text).flatten ++ (if headers.length > 0 then c!"\n" else [])

mutual
/-- `gen.rs:59-276` `codegen_module` at indentation `4 * k` (`is_root` iff `k = 1`). -/
def renderModule (headers : List Header) (k : Nat) : FlattenedModule → Str
  | .mk name actions modules =>
    renderHeaders k headers
    ++ (actions.map (renderAction k)).flatten
    ++ renderSubmodules headers k modules
    ++ renderRouteEnum k name actions modules
/-- `gen.rs:194-201`: nested modules. -/
def renderSubmodules (headers : List Header) (k : Nat) : List FlattenedModule → Str
  | [] => []
  | m :: ms => renderSubmodule headers k m ++ renderSubmodules headers k ms
/-- `gen.rs:195-200`: one nested module. -/
def renderSubmodule (headers : List Header) (k : Nat) : FlattenedModule → Str
  | .mk name actions modules =>
    line k (c!"pub mod " ++ toSnakeCase name ++ c!" {")
    ++ (renderHeaders (k + 1) headers
        ++ (actions.map (renderAction (k + 1))).flatten
        ++ renderSubmodules headers (k + 1) modules
        ++ renderRouteEnum (k + 1) name actions modules)
    ++ line k c!"}" ++ c!"\n"
end

/-- `str::replace(s, "\n", "\n    //! ")` (`gen.rs:302`). -/
def commentLines (s : Str) : Str :=
  (s.map fun c => if c = '\n' then c!"\n    //! " else [c]).flatten

/-- `gen.rs:287-300`. -/
def prelude1 : Str :=
  c!"pub mod routes {\n\n    //! Application route configuration.\n    //!\n    //! Of note is the function [`match_route`] as well as request structs\n    //! specific to each named resource.\n    //!\n    //! Route configuration:\n    //!\n    //! ```ignore\n    //! /\n"

/-- `gen.rs:305-314`. -/
def prelude2 : Str :=
  c!"    //! ```\n    //!\n    //! [`match_route`]: fn.match_route.html\n\n    #![allow(dead_code)]\n    #![allow(unused_imports)]\n    #![allow(unused_mut)]\n    #![allow(unused_variables)]\n\n"

/-- `gen.rs:319-463`: the fixed types and the head of `match_route`. -/
def fixedPart : Str :=
  c!"    #[derive(PartialEq, Eq)]\n    pub enum Match<T> {\n        NotFound,\n        NotAllowed,\n        Route(T),\n        Redirect(T),\n    }\n\n"
  ++ c!"    use std::fmt;\n    impl<T: fmt::Debug> fmt::Debug for Match<T> {\n        fn fmt(&self, f: &mut fmt::Formatter) -> fmt::Result {\n            match self {\n                Match::NotFound => write!(f, \"Match::NotFound\"),\n                Match::NotAllowed => write!(f, \"Match::NotAllowed\"),\n                Match::Route(t) => write!(f, \"Match::Route({:?})\", t),\n                Match::Redirect(t) => write!(f, \"Match::Redirect({:?})\", t),\n            }\n        }\n    }\n\n"
  ++ c!"    pub struct Error {\n        param: String,\n        what: Box<dyn fmt::Debug>,\n    }\n\n    impl fmt::Debug for Error {\n        fn fmt(&self, f: &mut fmt::Formatter) -> fmt::Result {\n            f.debug_struct(\"wayfinder::Error\")\n                .field(\"param\", &self.param)\n                .field(\"what\", &self.what)\n                .finish()\n        }\n    }\n\n"
  ++ c!"    impl fmt::Display for Error {\n        fn fmt(&self, f: &mut fmt::Formatter) -> fmt::Result {\n            write!(\n                f,\n                \"Error parsing '{}' parameter {:?}\",\n                self.param, self.what\n            )\n        }\n    }\n\n    impl std::error::Error for Error {}\n\n"
  ++ c!"    impl Error {\n        pub fn fail<S: AsRef<str>, T: fmt::Debug + 'static>(param: S, what: T) -> Error {\n            Error {\n                param: param.as_ref().to_string(),\n                what: Box::new(what),\n            }\n        }\n    }\n"
  ++ c!"    /// Match a path and method against this router.\n    ///\n    /// Accepts a byte slice for the request path and HTTP verb.\n    /// Returns a `Result`, usually `Ok` with the result of the\n    /// [`Match`].\n    ///\n    /// If the match was successful, it will be a `Match::Route` or\n    /// `Match::Redirect` with the parameters enclosed.  You can then\n    /// match on the [`Route`] to pass control of the request along to\n    /// a specific handler.\n    ///\n"
  ++ c!"    /// If there is no match, this will return `Match::NotFound`\n    /// if no path matches (which you could return as `404 Not Found`),\n    /// or `Match::NotAllowed` if no method matches (in which case a\n    /// `405 Not Allowed` would be appropriate).\n    ///\n    /// If a route parameter fails to parse correctly, this will return\n    /// `Err` with the underlying parsing error.  Usually you'll want\n    /// to send back a `400 Bad Request` for that.\n    ///\n    /// [`Match`]: enum.Match.html\n    /// [`Route`]: enum.Route.html\n"
  ++ c!"    pub fn match_route<P: AsRef<[u8]>, M: AsRef<[u8]>>(\n        path: P,\n        method: M,\n    ) -> Result<Match<Route>, Error> {\n        let method = method.as_ref();\n        let path = path.as_ref();\n        let len = path.len();\n        let mut i = if len > 0 && &path[0..1] == b\"/\" { 1 } else { 0 };\n\n"

/-- `gen.rs:467-469`. -/
def postlude : Str := c!"    }\n\n} // mod routes\n"

/-- `gen.rs:302-304`: the configuration as a doc comment.  On an empty configuration the slice
bound underflows and the call panics. -/
def configComment (r : Routes) : Out :=
  let s := commentLines (r.stringify 1)
  if s.length < 8 then ⟨[], some .emptyConfig⟩
  else Out.write (c!"    //! " ++ s.take (s.length - 8))

/-- `gen.rs:465`: the body of `match_route`. -/
def matcherText (r : Routes) : Out :=
  match matcherBody r with
  | .error e => ⟨[], some e⟩
  | .ok body => Out.write (renderBlock 2 body)

/-- `gen.rs:285-472`: the writes of `codegen` after the module tree has been built.  Simplification:
if `codegen_trie` stopped half-way (which is proved impossible) the text it had already written is
not recorded. -/
def codegenFrom (root : FlattenedModule) (c : RouteConfig) : Out :=
  (Out.write prelude1).andThen <|
  (configComment c.routes).andThen <|
  (Out.write prelude2).andThen <|
  (Out.write (renderModule c.headers 1 root)).andThen <|
  (Out.write c!"\n").andThen <|
  (Out.write fixedPart).andThen <|
  (matcherText c.routes).andThen <|
  Out.write postlude

/-- `gen.rs:280-472` `codegen`. -/
def codegen (c : RouteConfig) : Out :=
  match modulesRoot c.routes with
  | none => ⟨[], some .duplicateAction⟩
  | some root => codegenFrom root c

end Wayfinder
