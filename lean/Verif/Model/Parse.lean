import Verif.Model.Core
import Verif.Model.Nom
/-!
# Model of `/repo/wayfinder/src/parse/mod.rs`
-/

namespace Wayfinder

/-- `parse/mod.rs:33-35` `is_identifier_char`.  On ASCII characters `char::is_alphanumeric` is
`[A-Za-z0-9]`; on the others it is the parameter `uni`. -/
def isIdentifierChar (cfg : ParseCfg) (c : Char) : Bool :=
  if c.toNat < 128 then c.isAlphanum || c == '_' else cfg.uni c

/-- `parse/mod.rs:37-44` `method`. -/
def pMethod (cfg : ParseCfg) : Parser Method :=
  pAlt cfg.altFail
    [pMap (fun _ => Method.get) (pTagNoCase c!"get"),
     pMap (fun _ => Method.post) (pTagNoCase c!"post"),
     pMap (fun _ => Method.put) (pTagNoCase c!"put"),
     pMap (fun _ => Method.delete) (pTagNoCase c!"delete")]

/-- `parse/mod.rs:45-50` `colon`. -/
def pColon : Parser Str := pReturnError (.custom c!"Expected \":\"") (pTag c!":")

/-- A maximal non-empty run of identifier characters (`take_while1!(is_identifier_char)`). -/
def pIdent (cfg : ParseCfg) : Parser Str := pTakeWhile1 (isIdentifierChar cfg)

/-- `parse/mod.rs:52-59` `param`. -/
def pParam (cfg : ParseCfg) : Parser Param :=
  pBind (pIdent cfg) fun name => pBind (pWs pColon) fun _ => pBind (pIdent cfg) fun typ =>
    pPure ⟨name, typ⟩

/-- `parse/mod.rs:19-31`: `count!(tag!("  "), level)`. -/
def pIndent (level : Nat) : Parser (List Str) := pCount (pTag c!"  ") level

/-- `parse/mod.rs:65-70`: a parameter between braces. -/
def pBraced (cfg : ParseCfg) : Parser Param :=
  pPreceded (pChar '{') (pTerminated (pWs (pParam cfg)) (pReturnError (.custom c!"Expected a \"}\"") (pChar '}')))

/-- `parse/mod.rs:61-74` `path_segment`. -/
def pPathSegment (cfg : ParseCfg) (level : Nat) : Parser PathSegment :=
  pPreceded (pIndent level) <| pReturning cfg.early (pPreceded (pChar '{') (pWs (pParam cfg))) (pBraced cfg) <|
    pAlt cfg.altFail [pMap PathSegment.dynamic (pBraced cfg), pMap PathSegment.static (pIdent cfg)]

/-- `parse/mod.rs:76-83` `query_parameter`. -/
def pQueryParameter (cfg : ParseCfg) (level : Nat) : Parser Param :=
  pPreceded (pIndent level) <|
    pPreceded (pChar '[') (pTerminated (pWs (pParam cfg))
      (pReturnError (.custom c!"Expected a \"]\"") (pChar ']')))

/-- `parse/mod.rs:89-94`: module names and the action name. -/
def pTargetPath (cfg : ParseCfg) (redirect : Bool) : Parser (Bool × List Str × Str) :=
  pBind (pMany0 (pTerminated (pIdent cfg) (pWs (pTag c!"::")))) fun modules =>
  pBind (pIdent cfg) fun action => pPure (redirect, modules, action)

/-- `parse/mod.rs:85-105` `target`. -/
def pTarget (cfg : ParseCfg) : Parser (Bool × List Str × Str) :=
  pAlt cfg.altFail
    [pPreceded (pWs (pTag c!"->")) (pTargetPath cfg true), pTargetPath cfg false]

/-- `parse/mod.rs:107-112` `require_newline`. -/
def pRequireNewline : Parser Unit :=
  pReturnError (.custom c!"Expected a newline") (pMap (fun _ => ()) (pMany1 pLineEnding))

/-- `parse/mod.rs:114-137` `resource`. -/
def pResource (cfg : ParseCfg) (level : Nat) : Parser Resource :=
  pPreceded (pIndent level) <|
    pBind (pMethod cfg) fun method =>
    pBind (pChar ' ') fun _ =>
    pBind (pTarget cfg) fun target =>
    pBind pRequireNewline fun _ =>
    pBind (pMany0 (pTerminated (pQueryParameter cfg (level + 1)) pRequireNewline)) fun qs =>
      pPure { method := method, modules := target.2.1, name := target.2.2,
              isRedirect := target.1, queryParameters := qs }

/-- `parse/mod.rs:139-158` `resources_and_routes`, given the parser for nested routes. -/
def pResourcesAndRoutes (cfg : ParseCfg) (nested : Parser NestedRoutes) (level : Nat) :
    Parser (List Resource × List NestedRoutes) :=
  pReturnError (.custom c!"Expected resources or child routes") <| pAlt cfg.altFail
    [pBind (pMany1 (pResource cfg level)) fun resources =>
      pBind (pAlt cfg.altFail
        [pPreceded (pMany0 pLineEnding) (pMany1 nested), pPure []]) fun routes =>
      pPure (resources, routes),
     pBind (pMany1 nested) fun routes => pPure ([], routes)]

/-- `parse/mod.rs:160-175` `routes`, given the parser for nested routes. -/
def pRoutesWith (cfg : ParseCfg) (nested : Parser NestedRoutes) (level : Nat) : Parser Routes :=
  pBind (pMany0 (pTerminated (pQueryParameter cfg level) (pMany1 pLineEnding))) fun qs =>
  pBind (pResourcesAndRoutes cfg nested level) fun rnr =>
    pPure (.mk rnr.1 rnr.2 qs)

/-- `parse/mod.rs:177-192` `nested_routes`.  `fuel` bounds the nesting depth; every level consumes
input, so the length of the input is enough (`Proofs/ParseFuel.lean`). -/
def pNestedRoutes (cfg : ParseCfg) : Nat → Nat → Parser NestedRoutes
  | 0, _ => fun i => .error (.code i .alt)
  | fuel + 1, level =>
    pBind (pPathSegment cfg level) fun segment =>
    pBind (pMany1 pLineEnding) fun _ =>
    pBind (pReturnError (.custom c!"In routes starting here")
      (pRoutesWith cfg (pNestedRoutes cfg fuel (level + 1)) (level + 1))) fun routes =>
      pPure (.mk segment routes)

/-- `parse/mod.rs:160-175` `routes`. -/
def pRoutes (cfg : ParseCfg) (level : Nat) : Parser Routes := fun i =>
  pRoutesWith cfg (pNestedRoutes cfg (i.length + 1) level) level i

/-- `parse/mod.rs:194-202` `header`. -/
def pHeader : Parser Header :=
  pBind (pTerminated
    (pRecognize (pBind (pNot (pChar '/')) fun _ => pMany0 pNotLineEnding))
    (pMany1 pLineEnding)) fun text => pPure ⟨text⟩

/-- `parse/mod.rs:204-222` `route_config`. -/
def routeConfig (cfg : ParseCfg) : Parser RouteConfig :=
  pBind (pMany0 pHeader) fun headers =>
  pBind (pMany0 pLineEnding) fun _ =>
  pBind (pChar '/') fun _ =>
  pBind (pMany1 pLineEnding) fun _ =>
  pBind (pRoutes cfg 1) fun routes =>
  pBind pEof fun _ =>
    pPure ⟨headers.filter (fun h => h.text.length != 0), routes⟩

end Wayfinder
