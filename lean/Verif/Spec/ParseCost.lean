import Verif.Model.Parse
/-!
# What reading a route file costs

A parser together with the number of steps it takes.  The combinators are those of `Model/Nom.lean` with a charge added;
the parsers are those of `Model/Parse.lean` written with them, so that what they return is, by definition, what the
model returns.  Charged are: one step for every call of a combinator that looks at the text, one for every character it
looks at (a tag is charged its length, `line_ending` two characters), one for every turn of a loop, one for every
alternative tried and one for every wrapper (`return_error!`, `not!`, `recognize!`, `ws!`).  Not charged are building the
values that are returned (copying the names, dropping the empty headers) and, in a turn of a loop that takes nothing,
comparing the rest with the text character by character.
-/

namespace Wayfinder

/-- A parser and the number of steps it takes. -/
structure Timed (α : Type) where
  run : Parser α
  cost : Str → Nat

variable {α β γ : Type}

/-- The steps of what comes next, if anything does. -/
def Res.next (r : Res α) (k : Str → α → Nat) : Nat :=
  match r with
  | .ok rest a => k rest a
  | _ => 0

/-- `pBind`: one after the other. -/
def tBind (p : Timed α) (f : α → Timed β) : Timed β where
  run := pBind p.run fun a => (f a).run
  cost i := p.cost i + (p.run i).next fun rest a => (f a).cost rest

/-- `pPure`: nothing is looked at. -/
def tPure (a : α) : Timed α := ⟨pPure a, fun _ => 0⟩

/-- `pMap`. -/
def tMap (f : α → β) (p : Timed α) : Timed β := tBind p fun a => tPure (f a)

/-- `pPreceded`. -/
def tPreceded (p : Timed α) (q : Timed β) : Timed β := tBind p fun _ => q

/-- `pTerminated`. -/
def tTerminated (p : Timed α) (q : Timed β) : Timed α := tBind p fun a => tBind q fun _ => tPure a

/-- `pTag`: the length of the tag. -/
def tTag (t : Str) : Timed Str := ⟨pTag t, fun _ => 1 + t.length⟩

/-- `pTagNoCase`: the length of the tag. -/
def tTagNoCase (t : Str) : Timed Str := ⟨pTagNoCase t, fun _ => 1 + t.length⟩

/-- `pChar`: one character. -/
def tChar (c : Char) : Timed Char := ⟨pChar c, fun _ => 1⟩

/-- `pEof`. -/
def tEof : Timed Unit := ⟨pEof, fun _ => 1⟩

/-- `pTakeWhile1`: the characters taken. -/
def tTakeWhile1 (f : Char → Bool) : Timed Str := ⟨pTakeWhile1 f, fun i => 1 + (i.takeWhile f).length⟩

/-- `pLineEnding`: two characters. -/
def tLineEnding : Timed Unit := ⟨pLineEnding, fun _ => 3⟩

/-- `pNotLineEnding`: the rest of the line and two characters more. -/
def tNotLineEnding : Timed Str := ⟨pNotLineEnding, fun i => 3 + (i.takeWhile notEol).length⟩

/-- `pNot`. -/
def tNot (p : Timed α) : Timed Unit := ⟨pNot p.run, fun i => 1 + p.cost i⟩

/-- `pRecognize`. -/
def tRecognize (p : Timed α) : Timed Str := ⟨pRecognize p.run, fun i => 1 + p.cost i⟩

/-- The turns of `many0Loop`. -/
def loopCost (p : Timed α) : Nat → Str → Nat
  | 0, _ => 0
  | fuel + 1, i => 1 + p.cost i + (p.run i).next fun rest _ => if rest = i then 0 else loopCost p fuel rest

/-- `pMany0`. -/
def tMany0 (p : Timed α) : Timed (List α) := ⟨pMany0 p.run, fun i => loopCost p (i.length + 1) i⟩

/-- `pMany1`. -/
def tMany1 (p : Timed α) : Timed (List α) where
  run := pMany1 p.run
  cost i := 1 + p.cost i + (p.run i).next fun rest _ => loopCost p (rest.length + 1) rest

/-- The turns of `countLoop`. -/
def countCost (p : Timed α) : Nat → Str → Nat
  | 0, _ => 0
  | n + 1, i => 1 + p.cost i + (p.run i).next fun rest _ => countCost p n rest

/-- `pCount`. -/
def tCount (p : Timed α) (n : Nat) : Timed (List α) := ⟨pCount p.run n, countCost p n⟩

/-- `pReturnError`. -/
def tReturnError (k : Kind) (p : Timed α) : Timed α := ⟨pReturnError k p.run, fun i => 1 + p.cost i⟩

/-- The alternatives tried by `pAlt`. -/
def altCost (altFail : Bool) : List (Timed α) → Str → Nat
  | [], _ => 0
  | p :: ps, i => 1 + p.cost i + match p.run i with
    | .ok _ _ => 0
    | .error _ => altCost altFail ps i
    | .failure _ => if altFail then altCost altFail ps i else 0

/-- `pAlt`. -/
def tAlt (altFail : Bool) (ps : List (Timed α)) : Timed α := ⟨pAlt altFail (ps.map (·.run)), altCost altFail ps⟩

/-- `pReturning`: the alternatives, or the one in which `return_error!` returns. -/
def tReturning (early : Bool) (before : Parser α) (p : Timed β) (alt : Timed γ) : Timed γ where
  run := pReturning early before p.run alt.run
  cost i :=
    if early then
      match before i, p.run i with
      | .ok _ _, .failure _ => 1 + p.cost i
      | _, _ => alt.cost i
    else alt.cost i

/-- `pWs`: the blanks skipped, before and after. -/
def tWs (p : Timed α) : Timed α where
  run := pWs p.run
  cost i := 1 + (i.takeWhile isWs).length + p.cost (i.dropWhile isWs) +
    (p.run (i.dropWhile isWs)).next fun rest _ => (rest.takeWhile isWs).length

/-! ### The parsers -/

variable (cfg : ParseCfg)

/-- `pMethod`, `parse/mod.rs:37-44`. -/
def tMethod : Timed Method :=
  tAlt cfg.altFail
    [tMap (fun _ => Method.get) (tTagNoCase c!"get"),
     tMap (fun _ => Method.post) (tTagNoCase c!"post"),
     tMap (fun _ => Method.put) (tTagNoCase c!"put"),
     tMap (fun _ => Method.delete) (tTagNoCase c!"delete")]

/-- `pColon`, `parse/mod.rs:45-50`. -/
def tColon : Timed Str := tReturnError (.custom c!"Expected \":\"") (tTag c!":")

/-- `pIdent`. -/
def tIdent : Timed Str := tTakeWhile1 (isIdentifierChar cfg)

/-- `pParam`, `parse/mod.rs:52-59`. -/
def tParam : Timed Param :=
  tBind (tIdent cfg) fun name => tBind (tWs tColon) fun _ => tBind (tIdent cfg) fun typ => tPure ⟨name, typ⟩

/-- `pIndent`, `parse/mod.rs:19-31`. -/
def tIndent (level : Nat) : Timed (List Str) := tCount (tTag c!"  ") level

/-- `pBraced`, `parse/mod.rs:65-70`. -/
def tBraced : Timed Param :=
  tPreceded (tChar '{') (tTerminated (tWs (tParam cfg)) (tReturnError (.custom c!"Expected a \"}\"") (tChar '}')))

/-- `pPathSegment`, `parse/mod.rs:61-74`. -/
def tPathSegment (level : Nat) : Timed PathSegment :=
  tPreceded (tIndent level) <| tReturning cfg.early (pPreceded (pChar '{') (pWs (pParam cfg))) (tBraced cfg) <|
    tAlt cfg.altFail [tMap PathSegment.dynamic (tBraced cfg), tMap PathSegment.static (tIdent cfg)]

/-- `pQueryParameter`, `parse/mod.rs:76-83`. -/
def tQueryParameter (level : Nat) : Timed Param :=
  tPreceded (tIndent level) <|
    tPreceded (tChar '[') (tTerminated (tWs (tParam cfg)) (tReturnError (.custom c!"Expected a \"]\"") (tChar ']')))

/-- `pTargetPath`, `parse/mod.rs:89-94`. -/
def tTargetPath (redirect : Bool) : Timed (Bool × List Str × Str) :=
  tBind (tMany0 (tTerminated (tIdent cfg) (tWs (tTag c!"::")))) fun modules =>
  tBind (tIdent cfg) fun action => tPure (redirect, modules, action)

/-- `pTarget`, `parse/mod.rs:85-105`. -/
def tTarget : Timed (Bool × List Str × Str) :=
  tAlt cfg.altFail [tPreceded (tWs (tTag c!"->")) (tTargetPath cfg true), tTargetPath cfg false]

/-- `pRequireNewline`, `parse/mod.rs:107-112`. -/
def tRequireNewline : Timed Unit :=
  tReturnError (.custom c!"Expected a newline") (tMap (fun _ => ()) (tMany1 tLineEnding))

/-- `pResource`, `parse/mod.rs:114-137`. -/
def tResource (level : Nat) : Timed Resource :=
  tPreceded (tIndent level) <|
    tBind (tMethod cfg) fun method =>
    tBind (tChar ' ') fun _ =>
    tBind (tTarget cfg) fun target =>
    tBind tRequireNewline fun _ =>
    tBind (tMany0 (tTerminated (tQueryParameter cfg (level + 1)) tRequireNewline)) fun qs =>
      tPure { method := method, modules := target.2.1, name := target.2.2,
              isRedirect := target.1, queryParameters := qs }

/-- `pResourcesAndRoutes`, `parse/mod.rs:139-158`. -/
def tResourcesAndRoutes (nested : Timed NestedRoutes) (level : Nat) : Timed (List Resource × List NestedRoutes) :=
  tReturnError (.custom c!"Expected resources or child routes") <| tAlt cfg.altFail
    [tBind (tMany1 (tResource cfg level)) fun resources =>
      tBind (tAlt cfg.altFail [tPreceded (tMany0 tLineEnding) (tMany1 nested), tPure []]) fun routes =>
      tPure (resources, routes),
     tBind (tMany1 nested) fun routes => tPure ([], routes)]

/-- `pRoutesWith`, `parse/mod.rs:160-175`. -/
def tRoutesWith (nested : Timed NestedRoutes) (level : Nat) : Timed Routes :=
  tBind (tMany0 (tTerminated (tQueryParameter cfg level) (tMany1 tLineEnding))) fun qs =>
  tBind (tResourcesAndRoutes cfg nested level) fun rnr => tPure (.mk rnr.1 rnr.2 qs)

/-- `pNestedRoutes`, `parse/mod.rs:177-192`. -/
def tNestedRoutes : Nat → Nat → Timed NestedRoutes
  | 0, _ => ⟨fun i => .error (.code i .alt), fun _ => 0⟩
  | fuel + 1, level =>
    tBind (tPathSegment cfg level) fun segment =>
    tBind (tMany1 tLineEnding) fun _ =>
    tBind (tReturnError (.custom c!"In routes starting here")
      (tRoutesWith cfg (tNestedRoutes fuel (level + 1)) (level + 1))) fun routes =>
      tPure (.mk segment routes)

/-- `pRoutes`, `parse/mod.rs:160-175`. -/
def tRoutes (level : Nat) : Timed Routes where
  run i := (tRoutesWith cfg (tNestedRoutes cfg (i.length + 1) level) level).run i
  cost i := (tRoutesWith cfg (tNestedRoutes cfg (i.length + 1) level) level).cost i

/-- `pHeader`, `parse/mod.rs:194-202`. -/
def tHeader : Timed Header :=
  tBind (tTerminated (tRecognize (tBind (tNot (tChar '/')) fun _ => tMany0 tNotLineEnding)) (tMany1 tLineEnding))
    fun text => tPure ⟨text⟩

/-- `routeConfig`, `parse/mod.rs:204-222`. -/
def tRouteConfig : Timed RouteConfig :=
  tBind (tMany0 tHeader) fun headers =>
  tBind (tMany0 tLineEnding) fun _ =>
  tBind (tChar '/') fun _ =>
  tBind (tMany1 tLineEnding) fun _ =>
  tBind (tRoutes cfg 1) fun routes =>
  tBind tEof fun _ =>
    tPure ⟨headers.filter (fun h => h.text.length != 0), routes⟩

end Wayfinder
