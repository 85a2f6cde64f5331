import Verif.Proofs.Spell
import Verif.Proofs.Pipeline
import Verif.Spec.Spell
/-!
# The names of a file in terms of the configuration
-/

namespace Wayfinder
open Rust

theorem blockBinds_append (a b : List Stmt) : blockBinds (a ++ b) = blockBinds a ++ blockBinds b := by
  induction a with
  | nil => simp [blockBinds]
  | cons s ss ih => simp [blockBinds, ih]

theorem own_binds (d : Option FlattenedRoute) : blockBinds (ownMethods d) = [] := by
  cases d with
  | none => simp [ownMethods, blockBinds]
  | some v => simp only [ownMethods]; split <;> simp [writeMethods, blockBinds, Stmt.binds]

theorem sepHead_binds (d : Option FlattenedRoute) : blockBinds (separatorHead d) = [] := by
  cases d with
  | none => simp [separatorHead, blockBinds, Stmt.binds]
  | some v => simp only [separatorHead]; split <;> simp [writeMethods, blockBinds, Stmt.binds]

theorem dynamicHead_binds (x : Str) (b : List Stmt) : blockBinds (dynamicHead x b) = [x] := by
  simp [dynamicHead, blockBinds, Stmt.binds]

/-- A parameter with this name lies on a route after the point of the code. -/
def BoundIn (k : CodeKind) (x : Str) : Prop :=
  ∃ v, LiveItem k v ∧ ∃ more, v.path = k.pth ++ more ∧ ∃ p, .dynamic p ∈ more ∧ p.name = x

theorem boundIn_kids {ns : List NestedRoutes} {u : Str} {pth : List PathSegment} {q : List Param} {x : Str} :
    BoundIn (.kids ns u pth q) x ↔ ∃ n ∈ ns, ∃ rest, n.pathSegment = .static (u ++ rest) ∧
      BoundIn (.enter n.routes (pth ++ [.static (u ++ rest)]) q) x := by
  constructor
  · rintro ⟨v, ⟨n, hn, rest, hs, hi⟩, more, hm, p, hp, rfl⟩
    obtain ⟨more', hm'⟩ := itemOf_path hi
    refine ⟨n, hn, rest, hs, v, hi, more', hm', p, ?_, rfl⟩
    rw [hm'] at hm
    simp only [CodeKind.pth, List.append_assoc, List.append_cancel_left_eq, List.cons_append, List.nil_append] at hm
    rw [← hm] at hp
    simpa using hp
  · rintro ⟨n, hn, rest, hs, v, hi, more, hm, p, hp, rfl⟩
    exact ⟨v, ⟨n, hn, rest, hs, hi⟩, .static (u ++ rest) :: more, by simpa [CodeKind.pth] using hm, p, by simp [hp], rfl⟩

theorem boundIn_arms {ns : List NestedRoutes} {u : Str} {pth : List PathSegment} {q : List Param} {chars : Str} {x : Str} :
    BoundIn (.arms ns u pth q chars) x ↔ ∃ n ∈ ns, ∃ ch rest, ch ∈ chars ∧ n.pathSegment = .static (u ++ ch :: rest) ∧
      BoundIn (.enter n.routes (pth ++ [.static (u ++ ch :: rest)]) q) x := by
  constructor
  · rintro ⟨v, ⟨n, hn, ch, rest, hc, hs, hi⟩, more, hm, p, hp, rfl⟩
    obtain ⟨more', hm'⟩ := itemOf_path hi
    refine ⟨n, hn, ch, rest, hc, hs, v, hi, more', hm', p, ?_, rfl⟩
    rw [hm'] at hm
    simp only [CodeKind.pth, List.append_assoc, List.append_cancel_left_eq, List.cons_append, List.nil_append] at hm
    rw [← hm] at hp
    simpa using hp
  · rintro ⟨n, hn, ch, rest, hc, hs, v, hi, more, hm, p, hp, rfl⟩
    exact ⟨v, ⟨n, hn, ch, rest, hc, hs, hi⟩, .static (u ++ ch :: rest) :: more, by simpa [CodeKind.pth] using hm, p, by simp [hp], rfl⟩

theorem boundIn_param {rs : List Resource} {ns : List NestedRoutes} {qs : List Param}
    {pth : List PathSegment} {q : List Param} {n : NestedRoutes} {p : Param}
    (hpw : ns.Pairwise fun a b => ¬ SameSlot a.pathSegment b.pathSegment)
    (hn : n ∈ ns) (hseg : n.pathSegment = .dynamic p) (hcap : captor ns = some p.name)
    {w : Str} (hw : ∀ s ∈ staticTexts ns, w <+: s) {x : Str} :
    BoundIn (.block (.mk rs ns qs) pth q) x ↔ BoundIn (.kids ns w pth (q ++ qs)) x ∨ x = p.name ∨
      BoundIn (.enter n.routes (pth ++ [.dynamic p]) (q ++ qs)) x := by
  constructor
  · rintro ⟨v, hv, more, hm, p', hp, rfl⟩
    rcases (liveItem_param hpw hn hseg hcap hw).1 hv with rfl | hv | hv
    · simp only [CodeKind.pth, List.self_eq_append_right] at hm
      subst hm; cases hp
    · exact .inl ⟨v, hv, more, hm, p', hp, rfl⟩
    · right
      obtain ⟨more', hm'⟩ := itemOf_path hv
      rw [hm'] at hm
      simp only [CodeKind.pth, List.append_assoc, List.append_cancel_left_eq, List.cons_append, List.nil_append] at hm
      rw [← hm] at hp
      rcases List.mem_cons.1 hp with h | h
      · cases h; exact .inl rfl
      · exact .inr ⟨v, hv, more', hm', p', h, rfl⟩
  · rintro (⟨v, hv, more, hm, p', hp, rfl⟩ | rfl | ⟨v, hv, more, hm, p', hp, rfl⟩)
    · exact ⟨v, (liveItem_param hpw hn hseg hcap hw).2 (.inr (.inl hv)), more, hm, p', hp, rfl⟩
    · refine ⟨⟨pth ++ [.dynamic p], n.routes.resources, q ++ qs ++ n.routes.queryParameters⟩,
        (liveItem_param hpw hn hseg hcap hw).2 (.inr (.inr ⟨[], [], _, .here _, by simp⟩)), [.dynamic p], rfl, p, by simp, rfl⟩
    · exact ⟨v, (liveItem_param hpw hn hseg hcap hw).2 (.inr (.inr hv)), .dynamic p :: more, by simpa [CodeKind.pth] using hm, p',
        by simp [hp], rfl⟩

theorem boundIn_plain {rs : List Resource} {ns : List NestedRoutes} {qs : List Param}
    {pth : List PathSegment} {q : List Param} (hpar : paramNames ns = []) {x : Str} :
    BoundIn (.block (.mk rs ns qs) pth q) x ↔ BoundIn (.kids ns [] pth (q ++ qs)) x := by
  constructor
  · rintro ⟨v, hv, more, hm, p', hp, rfl⟩
    rcases (liveItem_plain hpar).1 hv with rfl | hv
    · simp only [CodeKind.pth, List.self_eq_append_right] at hm
      subst hm; cases hp
    · exact ⟨v, hv, more, hm, p', hp, rfl⟩
  · rintro ⟨v, hv, more, hm, p', hp, rfl⟩
    exact ⟨v, (liveItem_plain hpar).2 (.inr hv), more, hm, p', hp, rfl⟩

/-- The variables of emitted code are the parameters on the routes it is for. -/
theorem code_binds {k : CodeKind} {b : List Stmt} (h : Code k b) (hd : k.Distinct) (x : Str) :
    x ∈ blockBinds b ↔ BoundIn k x := by
  have hstep : ∀ {rs ns qs} {pth : List PathSegment} {q : List Param}, ∀ {n : NestedRoutes},
      (CodeKind.block (.mk rs ns qs) pth q).Distinct → n ∈ ns → DistinctSiblings n.routes :=
    fun h hn => (distinctSiblings_mk.1 h).2 _ hn
  induction h with
  | plain hpar _ ih =>
    rw [blockBinds_append, own_binds, List.nil_append, boundIn_plain hpar]
    exact ih (distinctSiblings_mk.1 hd).2
  | @param rs ns qs pth q n p b hn hseg hcap hst _ ih =>
    rw [boundIn_param (distinctSiblings_mk.1 hd).1 hn hseg hcap (w := []) (by simp)]
    have hno : ¬ BoundIn (.kids ns [] pth (q ++ qs)) x := by
      rintro ⟨v, hv, _⟩
      refine liveItem_none ?_ v hv
      intro n hn rest hs
      have : rest ∈ staticTexts ns := mem_staticTexts.2 ⟨n, hn, hs⟩
      rw [hst] at this; cases this
    simp only [blockBinds_append, blockBinds, Stmt.binds, own_binds, dynamicHead_binds, List.nil_append, List.mem_append,
      List.mem_singleton, ih (hstep hd hn), hno, false_or]
  | @both rs ns qs pth q n p b sb w l c _ hn hseg hcap hw hext _ _ _ ih1 ih2 =>
    rw [boundIn_param (distinctSiblings_mk.1 hd).1 hn hseg hcap hext]
    simp only [blockBinds_append, blockBinds, Stmt.binds, armsBinds, Arm.binds, own_binds, dynamicHead_binds, List.nil_append,
      List.append_nil, List.mem_append, List.mem_singleton, ih1 (distinctSiblings_mk.1 hd).2, ih2 (hstep hd hn)]
  | @enter r pth q b _ ih =>
    simp only [blockBinds_append, blockBinds, Stmt.binds, armsBinds, Arm.binds, sepHead_binds, List.nil_append, ih hd]
    rfl
  | none h =>
    simp only [blockBinds, Stmt.binds, List.append_nil, List.not_mem_nil, false_iff]
    rintro ⟨v, hv, _⟩
    exact liveItem_none h v hv
  | @sep ns u pth q n b hn hseg huniq _ _ ih =>
    have ih := ih (hd _ hn)
    refine ih.trans ?_
    rw [boundIn_kids]
    constructor
    · intro hb
      exact ⟨n, hn, [], by simpa using hseg, by simpa using hb⟩
    · rintro ⟨n', hn', rest, hs, hb⟩
      obtain rfl := huniq n' hn' rest hs
      rw [hseg] at hs
      simp only [PathSegment.static.injEq, List.self_eq_append_right] at hs
      subst hs
      simpa using hb
  | chain _ _ _ hext _ _ ih =>
    simp only [blockBinds, Stmt.binds, armsBinds, Arm.binds, List.nil_append, ih hd, boundIn_kids]
    constructor
    · rintro ⟨n, hn, rest, hs, hb⟩
      exact ⟨n, hn, _, by simpa using hs, by simpa using hb⟩
    · rintro ⟨n, hn, rest, hs, hb⟩
      obtain ⟨rest', rfl⟩ := hext n hn rest hs
      exact ⟨n, hn, rest', by simpa using hs, by simpa using hb⟩
  | branch hall _ _ _ _ ih =>
    have := ih hd
    simp only [blockBinds, Stmt.binds, List.append_nil] at this
    simp only [blockBinds, Stmt.binds, List.nil_append, List.append_nil, this, boundIn_kids, boundIn_arms]
    constructor
    · rintro ⟨n, hn, ch, rest, hc, hs, hb⟩
      exact ⟨n, hn, _, hs, hb⟩
    · rintro ⟨n, hn, rest, hs, hb⟩
      obtain ⟨ch, rest', hch, rfl⟩ := hall n hn rest hs
      exact ⟨n, hn, ch, rest', hch, hs, hb⟩
  | armsNil => simp [blockBinds, Stmt.binds, armsBinds, Arm.binds, boundIn_arms]
  | @armsCons ns u pth q c chars b as _ _ ih1 ih2 =>
    have h2 := ih2 hd
    simp only [blockBinds, Stmt.binds, List.append_nil] at h2
    simp only [blockBinds, Stmt.binds, armsBinds, Arm.binds, List.nil_append, List.append_nil, List.mem_append, ih1 hd, h2,
      boundIn_kids, boundIn_arms]
    constructor
    · rintro (⟨n, hn, rest, hs, hb⟩ | ⟨n, hn, ch, rest, hc, hs, hb⟩)
      · exact ⟨n, hn, c, rest, by simp, by simpa using hs, by simpa using hb⟩
      · exact ⟨n, hn, ch, rest, by simp [hc], hs, hb⟩
    · rintro ⟨n, hn, ch, rest, hc, hs, hb⟩
      rcases List.mem_cons.1 hc with rfl | hc
      · exact .inl ⟨n, hn, rest, by simpa using hs, by simpa using hb⟩
      · exact .inr ⟨n, hn, ch, rest, hc, hs, hb⟩

/-- The variables of `match_route` are the parameters on routes for which code is emitted. -/
theorem matcherBody_binds {r : Routes} {body : List Stmt} (hb : matcherBody r = .ok body) (hs : blockShapeOk body = true)
    (x : Str) : x ∈ blockBinds body ↔ ∃ segs above node p, LiveRoute r segs above node ∧ .dynamic p ∈ segs ∧ p.name = x := by
  rw [code_binds (matcherBody_code hb hs) (distinct_of_body hb)]
  constructor
  · rintro ⟨_, ⟨segs, above, node, hl, rfl⟩, more, hm, p, hp, rfl⟩
    simp only [CodeKind.pth, List.nil_append] at hm
    subst hm
    exact ⟨segs, above, node, p, hl, hp, rfl⟩
  · rintro ⟨segs, above, node, p, hl, hp, rfl⟩
    exact ⟨_, ⟨segs, above, node, hl, rfl⟩, segs, rfl, p, hp, rfl⟩

namespace Rust

variable {M N : Str → Prop}

mutual
theorem stmtNamed_iff : ∀ s : Stmt, s.shapeOk = true → StmtNamed M s →
    (StmtNamed N s ↔ (∀ a ∈ s.literals, ArmNamed N a) ∧ ∀ x ∈ s.binds, N x)
  | .blank, _, _ => by simp [StmtNamed, Stmt.literals, Stmt.binds]
  | .letStart, _, _ => by simp [StmtNamed, Stmt.literals, Stmt.binds]
  | .retNotFound, _, _ => by simp [StmtNamed, Stmt.literals, Stmt.binds]
  | .whileScan, _, _ => by simp [StmtNamed, Stmt.literals, Stmt.binds]
  | .letText, _, _ => by simp [StmtNamed, Stmt.literals, Stmt.binds]
  | .addI _, _, _ => by simp [StmtNamed, Stmt.literals, Stmt.binds]
  | .letParam x t, _, _ => by simp [StmtNamed, Stmt.literals, Stmt.binds]
  | .matchMethod arms, _, _ => by simp [StmtNamed, Stmt.literals, Stmt.binds]
  | .ifThen c b, hs, h => by
    simp only [StmtNamed, Stmt.shapeOk] at h hs ⊢
    simpa [Stmt.literals, Stmt.binds] using blockNamed_iff b hs h
  | .matchPath k as, hs, h => by
    simp only [StmtNamed, Stmt.shapeOk] at h hs ⊢
    simpa [Stmt.literals, Stmt.binds] using armsNamed_iff as hs h
theorem blockNamed_iff : ∀ b : List Stmt, blockShapeOk b = true → BlockNamed M b →
    (BlockNamed N b ↔ (∀ a ∈ blockLiterals b, ArmNamed N a) ∧ ∀ x ∈ blockBinds b, N x)
  | [], _, _ => by simp [BlockNamed, blockLiterals, blockBinds]
  | s :: b, hs, h => by
    simp only [BlockNamed, blockShapeOk, Bool.and_eq_true] at h hs ⊢
    rw [stmtNamed_iff s hs.1 h.1, blockNamed_iff b hs.2 h.2]
    simp only [blockLiterals, blockBinds, List.forall_mem_append]
    tauto
theorem armNamed_iff : ∀ a : Arm, a.shapeOk = true → PathArmNamed M a →
    (PathArmNamed N a ↔ (∀ x ∈ a.literals, ArmNamed N x) ∧ ∀ x ∈ a.binds, N x)
  | .wildNotFound, _, _ => by simp [PathArmNamed, Arm.literals, Arm.binds]
  | .wildNothing, _, _ => by simp [PathArmNamed, Arm.literals, Arm.binds]
  | .someSlash, _, _ => by simp [PathArmNamed, Arm.literals, Arm.binds]
  | .stray b, hs, _ => by simp [Arm.shapeOk] at hs
  | .bytes pat b, hs, h => by
    simp only [PathArmNamed, Arm.shapeOk, Bool.and_eq_true] at h hs ⊢
    rw [blockNamed_iff b hs.2 h.2]
    simp only [Arm.literals, Arm.binds]
    exact ⟨fun g => g.2, fun g => ⟨h.1, g⟩⟩
theorem armsNamed_iff : ∀ as : List Arm, armsShapeOk as = true → ArmsNamed M as →
    (ArmsNamed N as ↔ (∀ a ∈ armsLiterals as, ArmNamed N a) ∧ ∀ x ∈ armsBinds as, N x)
  | [], _, _ => by simp [ArmsNamed, armsLiterals, armsBinds]
  | a :: as, hs, h => by
    simp only [ArmsNamed, armsShapeOk, Bool.and_eq_true] at h hs ⊢
    rw [armNamed_iff a hs.1 h.1, armsNamed_iff as hs.2 h.2]
    simp only [armsLiterals, armsBinds, List.forall_mem_append]
    tauto
end

end Rust
end Wayfinder
