import Verif.Model.Nom
import Verif.Spec.Config
/-!
# Specification vocabulary: configurations that can be written in a route file
-/

namespace Wayfinder

/-- The characters of names: ASCII letters and digits, `_`, and the alphanumeric characters beyond
ASCII (which those are is left open). -/
def WordChar (cfg : ParseCfg) (c : Char) : Prop :=
  c = '_' ∨ ('a' ≤ c ∧ c ≤ 'z') ∨ ('A' ≤ c ∧ c ≤ 'Z') ∨ ('0' ≤ c ∧ c ≤ '9') ∨
    (128 ≤ c.toNat ∧ cfg.uni c = true)

/-- A non-empty word. -/
def Word (cfg : ParseCfg) (s : Str) : Prop := s ≠ [] ∧ ∀ c ∈ s, WordChar cfg c

/-- Name and type are words. -/
def Param.Written (cfg : ParseCfg) (p : Param) : Prop := Word cfg p.name ∧ Word cfg p.typ

/-- All names of a resource are words. -/
def Resource.Written (cfg : ParseCfg) (r : Resource) : Prop :=
  Word cfg r.name ∧ (∀ m ∈ r.modules, Word cfg m) ∧ ∀ q ∈ r.queryParameters, q.Written cfg

/-- The text of a static segment, or the name and the type of a parameter, are words. -/
def PathSegment.Written (cfg : ParseCfg) : PathSegment → Prop
  | .static s => Word cfg s
  | .dynamic p => p.Written cfg

/-- All names are words and every block has a resource or a child. -/
def Routes.Written (cfg : ParseCfg) (r : Routes) : Prop :=
  ∀ segs query node, HasRoute r segs query node →
    (∀ seg ∈ segs, seg.Written cfg) ∧ (node.resources ≠ [] ∨ node.routes ≠ []) ∧
    (∀ x ∈ node.resources, x.Written cfg) ∧ ∀ q ∈ node.queryParameters, q.Written cfg

/-- A header is a non-empty line that does not begin with `/`. -/
def Header.Written (h : Header) : Prop :=
  h.text ≠ [] ∧ (∀ c ∈ h.text, c ≠ '\n' ∧ c ≠ '\r') ∧ h.text.head? ≠ some '/'

/-- A configuration that a route file can express. -/
def RouteConfig.Written (cfg : ParseCfg) (c : RouteConfig) : Prop :=
  (∀ h ∈ c.headers, h.Written) ∧ c.routes.Written cfg

/-- The printer can indent every line: blocks at most seven levels deep (the root block is at level
one), and one level less if there are query parameters below a resource. -/
def Shallow (r : Routes) : Prop :=
  ∀ segs query node, HasRoute r segs query node →
    segs.length + 1 ≤ 7 ∧ ∀ x ∈ node.resources, x.queryParameters ≠ [] → segs.length + 2 ≤ 7

end Wayfinder
