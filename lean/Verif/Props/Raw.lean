import Verif.Props.Path
import Verif.Props.Reach
import Verif.Props.File
import Verif.Props.Doc
import Verif.Tests.Demo
/-!
# C69: paths are compared as they are

`match_route` looks for slashes and for the texts of the configuration and for nothing else: `?`, `#`, `%`, `;` and dots in a path
mean nothing to it.
-/

namespace Wayfinder

variable {W : World} {r : Routes} {body : List Stmt}

/-- The character occurs in no static text of the configuration. -/
def Unwritten (r : Routes) (c : Char) : Prop :=
  ∀ segs above node, HasRoute r segs above node → ∀ s, PathSegment.static s ∈ segs → c ∉ s

/-- An ASCII character other than `/`, as a byte. -/
structure PathChar (c : Char) : Prop where
  ascii : c.toNat < 128
  notSlash : c ≠ '/'

theorem asciiByte_lt {a b : Char} (ha : a.toNat < 128) (hb : b.toNat < 128) (h : asciiByte a = asciiByte b) : a = b := by
  have := congrArg UInt8.toNat h
  simp only [asciiByte, UInt8.toNat_ofNat'] at this
  rw [Nat.mod_eq_of_lt (by omega), Nat.mod_eq_of_lt (by omega)] at this
  exact Char.ext (UInt32.toNat_inj.1 this)

theorem mem_strip {b : UInt8} {path : Bytes} (hb : b ≠ slash) (h : b ∈ path) : b ∈ stripSlash path := by
  cases path with
  | nil => cases h
  | cons a path =>
    simp only [stripSlash]
    split
    · rename_i ha
      rcases List.mem_cons.1 h with h | h
      · exact absurd (h.trans ha) hb
      · exact h
    · exact h

theorem mem_spell {b : UInt8} {parts : List Bytes} (hb : b ≠ slash) (h : b ∈ spell parts) : ∃ part ∈ parts, b ∈ part := by
  simp only [spell, List.mem_flatMap, List.mem_append, List.mem_singleton] at h
  obtain ⟨part, h1, h2 | h2⟩ := h
  · exact ⟨part, h1, h2⟩
  · exact absurd h2 hb

theorem mem_spells {b : UInt8} {parts : List Bytes} {path : Bytes} (hb : b ≠ slash) (h : b ∈ path)
    (hs : Spells parts (stripSlash path)) : ∃ part ∈ parts, b ∈ part := by
  have h1 := mem_strip hb h
  rcases hs with hs | hs
  · exact mem_spell hb (hs ▸ h1)
  · exact mem_spell hb (hs ▸ List.mem_append_left _ h1)

theorem PathChar.byte {c : Char} (h : PathChar c) : asciiByte c ≠ slash :=
  fun he => h.notSlash (asciiByte_lt h.ascii (by decide) he)

/-- Where a byte of a path that fits a route lies. -/
theorem fits_byte {segs : List PathSegment} {caps : Caps W} {parts : List Bytes} (h : Fits W segs caps parts) {b : UInt8}
    (hs : ∀ s, PathSegment.static s ∈ segs → b ∉ bytesOf s) {part : Bytes} (hp : part ∈ parts) (hb : b ∈ part) :
    ∃ (j : Nat) (p : Param), segs[j]? = some (.dynamic p) ∧ parts[j]? = some part := by
  induction h with
  | nil => cases hp
  | @static segs caps parts s h ih =>
    rcases List.mem_cons.1 hp with rfl | hp
    · exact absurd hb (hs s List.mem_cons_self)
    · obtain ⟨j, p, h1, h2⟩ := ih (fun s h => hs s (List.mem_cons_of_mem _ h)) hp
      exact ⟨j + 1, p, by simpa using h1, by simpa using h2⟩
  | @dynamic segs caps parts p v part' text h1 h2 h3 h ih =>
    rcases List.mem_cons.1 hp with rfl | hp
    · exact ⟨0, p, rfl, rfl⟩
    · obtain ⟨j, p, h1, h2⟩ := ih (fun s h => hs s (List.mem_cons_of_mem _ h)) hp
      exact ⟨j + 1, p, by simpa using h1, by simpa using h2⟩

theorem live_byte (h : Supported r body) {c : Char} (hc : PathChar c) (hu : Unwritten r c) {segs : List PathSegment}
    {above : List Param} {node : Routes} (hl : LiveRoute r segs above node) :
    ∀ s, PathSegment.static s ∈ segs → asciiByte c ∉ bytesOf s := by
  intro s hs hm
  obtain ⟨d, hd, he⟩ := List.mem_map.1 hm
  have := asciiByte_lt (live_ascii hl h.conditions.1 s hs d hd) hc.ascii he
  subst this
  exact hu segs above node hl.hasRoute s hs hd

/-- **C69.** Let `c` be an ASCII character other than `/` that occurs in no text of the configuration.  If it occurs in a path that is
answered with a match, it stands in the text of a parameter of the matched route, as it is: this text, with the character, is what
`FromStr` was called with, and it was accepted. -/
theorem C69_captured (h : Supported r body) {c : Char} (hc : PathChar c) (hu : Unwritten r c) {path m : Bytes}
    (hm : asciiByte c ∈ path) {red : Bool} {v : RouteVal W} (hv : (callMatchRoute W body path m).isMatch red v) :
    ∃ segs query res parts, ∃ (j : Nat) (p : Param) (part : Bytes) (text : Str) (val : W.V), Declares r segs query res ∧ res.modules = v.modules ∧ res.name = v.name ∧
      m = verbBytes res.method ∧ Spells parts (stripSlash path) ∧ segs[j]? = some (PathSegment.dynamic p) ∧ parts[j]? = some part ∧
      asciiByte c ∈ part ∧ fromUtf8 part = some text ∧ c ∈ text ∧ W.parse p.typ text = .ok val ∧
      v.field p.name = some (.user val) := by
  obtain ⟨segs, above, node, caps, parts, res, h1, h2, h3, h4, h5, rfl⟩ := matched h hv
  obtain ⟨h6, h7, _⟩ := find_verb h4
  have hnd : ((routeParams segs).map Param.name).Nodup := by
    have := supported_fields h segs above node h1 res h6
    simp only [List.map_append, List.append_assoc] at this
    exact (List.nodup_append.1 this).1
  obtain ⟨part, hp, hb⟩ := mem_spells hc.byte hm h3
  obtain ⟨j, p, hj, hpj⟩ := fits_byte h2 (live_byte h hc hu h1) hp hb
  obtain ⟨part', text, val, h8, _, h9, h10, h11⟩ := fits_at h2 hnd j p hj
  rw [hpj] at h8
  cases h8
  refine ⟨segs, _, res, parts, j, p, part, text, val, ⟨node, above, h1.hasRoute, h6, rfl⟩, rfl, rfl, h7, h3, hj, hpj, hb, h9, ?_, h10, h11⟩
  obtain ⟨a, b, rfl⟩ := List.append_of_mem hb
  obtain ⟨s1, s2, rfl, _⟩ := utf8_split hc.ascii (utf8_of_fromUtf8 h9).symm
  simp

/-- The emitted program can be called. -/
theorem call_runs (h : Supported r body) (path m : Bytes) : callMatchRoute W body path m ≠ .rejected := by
  intro he
  rw [call_eq h] at he
  rcases route_classified W r [] [] (stripSlash path) with hk | hk | hk | hk
  · obtain ⟨segs, above, node, caps, parts, h1, h2, h3, h4, h5⟩ := hk
    rw [h5] at he
    have := answer_answered node.resources ([] ++ above ++ node.queryParameters) ([] ++ caps) m
    rw [he] at this; cases this
  · rw [show route W m r [] [] (stripSlash path) = _ from hk m] at he; cases he
  · obtain ⟨_, _, _, _, _, _, _, _, _, _, _, _, _, _, h6⟩ := hk
    rw [show route W m r [] [] (stripSlash path) = _ from h6 m] at he; cases he
  · rw [show route W m r [] [] (stripSlash path) = _ from hk.1 m] at he; cases he

/-- The `FromStr` of all parameters of the configuration refuse texts with the character. -/
def World.Rejects (W : World) (r : Routes) (c : Char) : Prop :=
  ∀ segs above node, HasRoute r segs above node → ∀ p, PathSegment.dynamic p ∈ segs → ∀ text, c ∈ text →
    ∃ e, W.parse p.typ text = .error e

/-- **C69, refused.** If moreover no `FromStr` of a parameter accepts a text with the character, as those of numbers and UUIDs do not, then no path
with the character is answered with a match, nor with `NotAllowed`. -/
theorem C69_refused (h : Supported r body) {c : Char} (hc : PathChar c) (hu : Unwritten r c) (hr : W.Rejects r c) {path : Bytes}
    (hm : asciiByte c ∈ path) (m : Bytes) : (callMatchRoute W body path m).answered = false := by
  have key : ∀ m red v, ¬ (callMatchRoute W body path m).isMatch red v := by
    intro m red v hv
    obtain ⟨segs, _, _, _, j, p, _, text, val, ⟨node, above, h0, _⟩, _, _, _, _, hj, _, _, _, h1, h2, _⟩ :=
      C69_captured h hc hu hm hv
    obtain ⟨e, he⟩ := hr segs above node h0 p (List.mem_of_getElem? hj) text h1
    rw [he] at h2
    cases h2
  cases e : callMatchRoute W body path m with
  | route v => exact absurd (show (callMatchRoute W body path m).isMatch false v from e) (key m false v)
  | redirect v => exact absurd (show (callMatchRoute W body path m).isMatch true v from e) (key m true v)
  | notAllowed =>
    obtain ⟨⟨m', red, v, h1⟩, _⟩ := (C03_not_allowed h path m).1.1 e
    exact absurd h1 (key m' red v)
  | _ => rfl

/-- **C69, without parameters.** In a configuration without parameters a path with such a character is not found. -/
theorem C69_static (h : Supported r body) {c : Char} (hc : PathChar c) (hu : Unwritten r c)
    (hs : ∀ segs above node, HasRoute r segs above node → ∀ p, PathSegment.dynamic p ∉ segs) {path : Bytes}
    (hm : asciiByte c ∈ path) (m : Bytes) : callMatchRoute W body path m = .notFound := by
  have key : ∀ m red v, ¬ (callMatchRoute W body path m).isMatch red v := by
    intro m red v hv
    obtain ⟨segs, _, _, _, j, p, _, _, _, ⟨node, above, h0, _⟩, _, _, _, _, hj, _⟩ := C69_captured h hc hu hm hv
    exact hs segs above node h0 p (List.mem_of_getElem? hj)
  cases e : callMatchRoute W body path m with
  | notFound => rfl
  | route v => exact absurd (show (callMatchRoute W body path m).isMatch false v from e) (key m false v)
  | redirect v => exact absurd (show (callMatchRoute W body path m).isMatch true v from e) (key m true v)
  | notAllowed =>
    obtain ⟨⟨m', red, v, h1⟩, _⟩ := (C03_not_allowed h path m).1.1 e
    exact absurd h1 (key m' red v)
  | err x e' =>
    obtain ⟨segs, p, above, node, _, _, _, _, h1, _⟩ := C08_errors h e
    exact absurd (by simp) (hs _ _ _ h1 p)
  | panic =>
    rcases C09_causes h path m e with ⟨segs, p, above, node, _, _, _, h1, _⟩ | ⟨segs, above, node, _, _, h1, ⟨_, h2, _⟩, _⟩
    · exact absurd (by simp) (hs _ _ _ h1 p)
    · obtain ⟨x, hx⟩ := List.exists_mem_of_ne_nil _ h2
      obtain ⟨⟨seg, sub⟩, hn, p, rfl, _⟩ := mem_paramNames.1 hx
      exact absurd (by simp) (hs _ _ _ (h1.trans (.child hn (.here sub))) p)
  | rejected => exact absurd e (call_runs h path m)

/-- **C69, files.** A file accepted by the parser has no text with an ASCII character that is not a letter, a digit or `_`. -/
theorem C69_file (cfg : ParseCfg) {i rest : Str} {f : RouteConfig} (hf : routeConfig cfg i = .ok rest f) {c : Char}
    (hc : c.toNat < 128) (hw : (c.isAlphanum || c == '_') = false) : Unwritten f.routes c := by
  intro segs above node h s hs hm
  have := ((C29_written cfg hf).2 segs above node h).1 _ hs
  have h1 := this.2 c hm
  rw [← wordChar_iff] at h1
  rw [nonWord_notWord cfg hc hw] at h1
  cases h1

/-! ## Two expectations that do not hold -/

/-- A query string, from the first `?` on, makes no difference. -/
def QueryIgnored (W : World) (body : List Stmt) : Prop :=
  ∀ path query m, asciiByte '?' ∉ path →
    callMatchRoute W body (path ++ asciiByte '?' :: query) m = callMatchRoute W body path m

/-- The value of a hexadecimal digit. -/
def hexValue (b : UInt8) : Option UInt8 :=
  if asciiByte '0' ≤ b ∧ b ≤ asciiByte '9' then some (b - asciiByte '0')
  else if asciiByte 'A' ≤ b ∧ b ≤ asciiByte 'F' then some (b - asciiByte 'A' + 10)
  else if asciiByte 'a' ≤ b ∧ b ≤ asciiByte 'f' then some (b - asciiByte 'a' + 10)
  else none

/-- A percent-encoded byte means the byte. -/
def PercentDecoded (W : World) (body : List Stmt) : Prop :=
  ∀ x y hi lo a b m, hexValue hi = some a → hexValue lo = some b →
    callMatchRoute W body (x ++ asciiByte '%' :: hi :: lo :: y) m = callMatchRoute W body (x ++ (16 * a + b) :: y) m

/-- Check for `Unwritten`. -/
def lacks (c : Char) : PathSegment → Bool
  | .static s => !s.contains c
  | .dynamic _ => true

theorem unwritten_of {r : Routes} {c : Char} (h : segsAll (lacks c) r = true) : Unwritten r c := by
  intro segs above node hr s hs
  have := segsAll_route hr h _ hs
  simpa [lacks] using this

/-- Check for configurations whose parameters are all of type `u32`. -/
def onlyU32 : PathSegment → Bool
  | .static _ => true
  | .dynamic p => p.typ = c!"u32"

theorem rejects_of {r : Routes} {c : Char} (h : segsAll onlyU32 r = true) (hc : c.isDigit = false) :
    Demo.world.Rejects r c := by
  intro segs above node hr p hp text ht
  have h1 : p.typ = c!"u32" := by simpa [onlyU32] using segsAll_route hr h _ hp
  refine ⟨c!"invalid digit", ?_⟩
  simp only [Demo.world, h1, if_true]
  rw [if_neg]
  rintro ⟨_, h2⟩
  have := List.all_eq_true.1 h2 c ht
  rw [hc] at this
  cases this

/-- The callers of `match_route` have to cut off the query string themselves: `/people` is found and `/people?x` is not.  The actions
have a field for each query parameter, but `match_route` never fills one in (C10). -/
theorem C69_query_false : ¬ ∀ W r body, Supported r body → PlainTexts r → QueryIgnored W body := by
  intro h
  have := h Demo.world _ _ Demo.people_supported Demo.people_plain (bytesOf c!"/people") (bytesOf c!"x") (bytesOf c!"GET") (by decide)
  have := congrArg Demo.shown this
  revert this
  decide +kernel

/-- Nor is anything decoded: `/p%65ople` is not `/people`. -/
theorem C69_percent_false : ¬ ∀ W r body, Supported r body → PlainTexts r → PercentDecoded W body := by
  intro h
  have := h Demo.world _ _ Demo.people_supported Demo.people_plain (bytesOf c!"/p") (bytesOf c!"ople") (asciiByte '6') (asciiByte '5')
    6 5 (bytesOf c!"GET") (by decide) (by decide)
  have := congrArg Demo.shown this
  revert this
  decide +kernel

/-! ## Cases -/

/-- A parameter takes everything up to the next slash, the query string with it. -/
example : Demo.ask Demo.cliff c!"/q?x=1%20#top" c!"GET" = .route [c!"a"] c!"X" [(c!"x", c!"q?x=1%20#top")] [] := by decide +kernel
example : Unwritten Demo.cliff '?' := unwritten_of (by decide)
example : PathChar '?' := ⟨by decide, by decide⟩

/-- `u32` refuses the question mark: the error of the parameter. -/
example : Demo.ask Demo.people c!"/people/17?x=1" c!"GET" = .err c!"id" c!"invalid digit" := by decide +kernel
example : Demo.world.Rejects Demo.people '?' := rejects_of (by decide) (by decide)
example (path m : Bytes) (h : asciiByte '?' ∈ path) :
    (callMatchRoute Demo.world (bodyOf Demo.people) path m).answered = false :=
  C69_refused Demo.people_supported ⟨by decide, by decide⟩ (unwritten_of (by decide)) (rejects_of (by decide) (by decide)) h m

/-- The file of the people application is accepted. -/
example : Unwritten Demo.people '%' := C69_file _ people_parsed (by decide) (by decide)

/-- A configuration without parameters. -/
def fixedPaths : Routes :=
  .mk [Demo.res .get c!"home" c!"Index"] [.mk (.static c!"about") (.mk [Demo.res .get c!"home" c!"About"] [] [])] []

example (path m : Bytes) (h : asciiByte '?' ∈ path) : callMatchRoute Demo.world (bodyOf fixedPaths) path m = .notFound :=
  C69_static (supported_of (by decide +kernel)) ⟨by decide, by decide⟩ (unwritten_of (by decide))
    (fun segs above node hr p hp => by
      have := segsAll_route (f := fun | .static _ => true | .dynamic _ => false) hr (by decide) _ hp
      cases this) h m

end Wayfinder
