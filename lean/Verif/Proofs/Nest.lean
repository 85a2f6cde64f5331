import Verif.Spec.Nest
import Verif.Proofs.Size
import Verif.Proofs.Indent
/-!
# Nesting of the code of `match_route`
-/

namespace Wayfinder

mutual
/-- How many levels below its own the deepest line of a statement begins. -/
def Stmt.height : Stmt → Nat
  | .ifThen _ body => blockHeight body + 1
  | .matchMethod _ => 2
  | .matchPath _ arms => armsHeight arms + 1
  | .whileScan => 1
  | .letParam _ _ => 1
  | _ => 0
/-- The same for a block. -/
def blockHeight : List Stmt → Nat
  | [] => 0
  | s :: ss => max s.height (blockHeight ss)
/-- The same for an arm. -/
def Arm.height : Arm → Nat
  | .bytes _ body => blockHeight body + 1
  | .stray body => blockHeight body
  | _ => 0
/-- The same for arms. -/
def armsHeight : List Arm → Nat
  | [] => 0
  | a :: as => max a.height (armsHeight as)
end

theorem blockHeight_append (a b : List Stmt) : blockHeight (a ++ b) = max (blockHeight a) (blockHeight b) := by
  induction a with
  | nil => simp [blockHeight]
  | cons s a ih => simp only [List.cons_append, blockHeight, ih, Nat.max_assoc]

theorem ownMethods_height (d : FlattenedRoute) : blockHeight (ownMethods (some d)) ≤ 3 := by
  simp only [ownMethods]
  split
  · simp [writeMethods, blockHeight, Stmt.height]
  · simp [blockHeight]

theorem separatorHead_height (d : FlattenedRoute) : blockHeight (separatorHead (some d)) ≤ 3 := by
  simp only [separatorHead]
  split
  · simp [writeMethods, blockHeight, Stmt.height]
  · simp [blockHeight, Stmt.height]

theorem dynamicHead_height (x : Str) (b : List Stmt) : blockHeight (dynamicHead x b) = 1 := by
  simp [dynamicHead, blockHeight, Stmt.height]

theorem crowd_le {n : NestedRoutes} : ∀ {ns : List NestedRoutes}, n ∈ ns → n.crowd ≤ nestedCrowd ns
  | m :: ns, h => by
    rw [nestedCrowd]
    rcases List.mem_cons.1 h with rfl | h
    · exact Nat.le_max_left ..
    · exact Nat.le_trans (crowd_le h) (Nat.le_max_right ..)

theorem crowd_eq (n : NestedRoutes) : n.crowd = n.routes.crowd := by
  obtain ⟨seg, r⟩ := n
  rfl

/-- A bound on the height of a piece of code. -/
def CodeKind.tops (l : Nat) : CodeKind → Prop
  | .block r _ _ => l ≤ 3 + 3 * r.crowd
  | .enter r _ _ => l ≤ 3 + 3 * r.crowd
  | .kids ns u _ _ => ∀ s, (∀ n ∈ kidsFrom ns u, n.crowd ≤ s) → l ≤ 3 + 3 * ((kidsFrom ns u).length - 1 + s)
  | .arms ns u _ _ chars => ∀ m s, (∀ n ∈ kidsFrom ns u, n.crowd ≤ s) →
      (∀ ch ∈ chars, (kidsFrom ns (u ++ [ch])).length ≤ m + 1) → l ≤ 5 + 3 * (m + s)

theorem kidsFrom_length (ns : List NestedRoutes) (u : Str) : (kidsFrom ns u).length ≤ ns.length :=
  List.length_filter_le ..

theorem kidsFrom_length_lt {ns : List NestedRoutes} {n : NestedRoutes} {u : Str} (hn : n ∈ ns)
    (h : ∀ rest, n.pathSegment ≠ .static (u ++ rest)) : (kidsFrom ns u).length < ns.length := by
  refine List.length_filter_lt_length_iff_exists.2 ⟨n, hn, ?_⟩
  have := mt (fun h => (mem_kidsFrom (ns := ns) (u := u)).1 (List.mem_filter.2 ⟨hn, h⟩))
    (fun ⟨_, rest, hr⟩ => h rest hr)
  exact this

theorem kidsFrom_sub {ns : List NestedRoutes} {n : NestedRoutes} {u w : Str} (h : n ∈ kidsFrom ns (u ++ w)) :
    n ∈ kidsFrom ns u := by
  obtain ⟨hn, rest, hr⟩ := mem_kidsFrom.1 h
  exact mem_kidsFrom.2 ⟨hn, w ++ rest, by simpa using hr⟩

theorem kidsFrom_filter (ns : List NestedRoutes) (u w : Str) :
    kidsFrom ns (u ++ w) = kidsFrom (kidsFrom ns u) (u ++ w) := by
  simp only [kidsFrom, List.filter_filter]
  refine List.filter_congr fun n _ => ?_
  cases n.pathSegment with
  | dynamic p => simp
  | static s =>
    simp only
    by_cases h : (u ++ w) <+: s
    · have h' : u <+: s := (List.prefix_append u w).trans h
      simp [List.isPrefixOf_iff_prefix.2 h, List.isPrefixOf_iff_prefix.2 h']
    · have : (u ++ w).isPrefixOf s = false := by
        cases hb : (u ++ w).isPrefixOf s with
        | false => rfl
        | true => exact absurd (List.isPrefixOf_iff_prefix.1 hb) h
      simp [this]

theorem code_height {k : CodeKind} {b : List Stmt} (h : Code k b) : k.tops (blockHeight b) := by
  induction h with
  | @plain rs ns qs pth q cb _ _ ih =>
    have h1 := ownMethods_height ⟨pth, rs, q ++ qs⟩
    have h2 := ih (nestedCrowd ns) fun n hn => crowd_le (mem_kidsFrom.1 hn).1
    have h3 := kidsFrom_length ns []
    simp only [CodeKind.tops, blockHeight_append, Routes.crowd] at *
    omega
  | @param rs ns qs pth q n p b hn _ _ _ _ ih =>
    have h1 := ownMethods_height ⟨pth, rs, q ++ qs⟩
    have h2 := crowd_le hn
    rw [crowd_eq] at h2
    simp only [CodeKind.tops, blockHeight_append, blockHeight, Stmt.height, dynamicHead_height, Routes.crowd] at *
    omega
  | @both rs ns qs pth q n p b sb w l c _ hn hseg _ _ hpre hne _ _ ih1 ih2 =>
    have h1 := ownMethods_height ⟨pth, rs, q ++ qs⟩
    have h2 := crowd_le hn
    rw [crowd_eq] at h2
    have h3 := ih1 (nestedCrowd ns) fun n hn => crowd_le (mem_kidsFrom.1 hn).1
    have h4 : (kidsFrom ns w).length < ns.length :=
      kidsFrom_length_lt hn fun rest hr => by rw [hseg] at hr; cases hr
    have h5 : 0 < (kidsFrom ns w).length := by
      obtain ⟨s, hs⟩ := List.exists_mem_of_ne_nil _ hne
      obtain ⟨rest, hr⟩ := hpre s hs
      obtain ⟨m, hm, he⟩ := mem_staticTexts.1 hs
      exact List.length_pos_of_mem (mem_kidsFrom.2 ⟨hm, rest, by rw [he, hr]⟩)
    simp only [CodeKind.tops, blockHeight_append, blockHeight, Stmt.height, armsHeight, Arm.height,
      dynamicHead_height, Routes.crowd] at *
    omega
  | @enter r pth q b _ ih =>
    have h1 := separatorHead_height ⟨pth, r.resources, q ++ r.queryParameters⟩
    simp only [CodeKind.tops, blockHeight_append, blockHeight, Stmt.height, armsHeight, Arm.height] at *
    omega
  | none _ => intro s _; simp [blockHeight, Stmt.height]
  | @sep ns u pth q n b hn hseg _ hk _ ih =>
    intro s hs
    have := hs n (by rw [hk]; simp)
    rw [crowd_eq] at this
    rw [hk]
    simp only [CodeKind.tops, List.length_singleton] at *
    omega
  | @chain ns u w pth q b l c _ _ _ hall _ _ ih =>
    intro s hs
    rw [kidsFrom_extend hall] at hs ⊢
    have := ih s hs
    simp only [blockHeight, Stmt.height, armsHeight, Arm.height] at *
    omega
  | @branch ns u pth q chars as hall hex h2 hnd _ ih =>
    intro s hs
    have h0 : ∀ ch ∈ chars, (kidsFrom ns (u ++ [ch])).length < (kidsFrom ns u).length := by
      intro ch hch
      have : ∃ ch' ∈ chars, ch' ≠ ch := by
        apply Classical.byContradiction
        intro hno
        have hall : ∀ x ∈ chars, x = ch := fun x hx => Classical.byContradiction fun hx' => hno ⟨x, hx, hx'⟩
        match chars, h2, hnd, hall with
        | x :: y :: _, _, hnd, hall =>
          have hx := hall x (by simp)
          have hy := hall y (by simp)
          rw [hx, hy] at hnd
          simp at hnd
      obtain ⟨ch', hch', hneq⟩ := this
      obtain ⟨n, hn, rest, hr⟩ := hex ch' hch'
      rw [kidsFrom_filter]
      refine kidsFrom_length_lt (mem_kidsFrom.2 ⟨hn, ch' :: rest, hr⟩) fun rest' hr' => hneq ?_
      rw [hr] at hr'
      simp only [List.append_assoc, PathSegment.static.injEq, List.append_cancel_left_eq, List.cons_append, List.nil_append,
        List.cons.injEq] at hr'
      exact hr'.1
    obtain ⟨c0, hc0⟩ : ∃ c, c ∈ chars := by
      cases chars with
      | nil => simp at h2
      | cons c _ => exact ⟨c, by simp⟩
    have hpos := h0 c0 hc0
    have hex0 : 0 < (kidsFrom ns (u ++ [c0])).length := by
      obtain ⟨n, hn, rest, hr⟩ := hex c0 hc0
      exact List.length_pos_of_mem (mem_kidsFrom.2 ⟨hn, rest, by simpa using hr⟩)
    have := ih ((kidsFrom ns u).length - 2) s hs fun ch hch => by have := h0 ch hch; omega
    simp only [blockHeight, Stmt.height] at *
    omega
  | armsNil => intro m s _ _; simp [blockHeight, Stmt.height, armsHeight, Arm.height]; omega
  | @armsCons ns u pth q ch chars b as _ _ ih1 ih2 =>
    intro m s hs hm
    have h1 := ih1 s fun n hn => hs n (kidsFrom_sub hn)
    have h2 := ih2 m s hs fun c hc => hm c (by simp [hc])
    have h3 := hm ch (by simp)
    simp only [blockHeight, Stmt.height, armsHeight, Arm.height] at *
    omega

/-! ## Texts -/

namespace Layout

open Rust (Name BlockNamed StmtNamed PathArmNamed ArmsNamed ArmNamed modsText nestText)

/-- Prepended to a text, the text adds no lines that begin behind level `d`. -/
def Left (d : Nat) (t : Str) : Prop :=
  ∀ X, (∀ l ∈ textLines X, margin l ≤ 4 * d) → ∀ l ∈ textLines (t ++ X), margin l ≤ 4 * d

theorem Left.append {d : Nat} {a b : Str} (ha : Left d a) (hb : Left d b) : Left d (a ++ b) := by
  intro X hX
  rw [List.append_assoc]
  exact ha _ (hb _ hX)

theorem Left.nil (d : Nat) : Left d [] := fun _ h => h

theorem Left.flatten {α : Type} {d : Nat} {f : α → Str} : ∀ {xs : List α}, (∀ x ∈ xs, Left d (f x)) →
    Left d (xs.map f).flatten
  | [], _ => .nil d
  | x :: xs, h => by
    simpa using (h x (by simp)).append (Left.flatten (xs := xs) fun y hy => h y (by simp [hy]))

theorem left_newline (d : Nat) : Left d c!"\n" := by
  intro X hX l hl
  have : textLines (c!"\n" ++ X) = [] :: textLines X := by simp [textLines]
  rw [this] at hl
  rcases List.mem_cons.1 hl with rfl | hl
  · simp [margin]
  · exact hX l hl

theorem margin_ind (k : Nat) {c : Char} {s : Str} (hc : c ≠ ' ') : margin (ind k ++ c :: s) = 4 * k := by
  have h1 : (ind k ++ c :: s).takeWhile (· = ' ') = ind k := by
    rw [List.takeWhile_append_of_pos]
    · simp [hc]
    · rw [ind_eq]
      simp
  rw [margin, h1, ind_eq, List.length_replicate]

theorem left_line {d k : Nat} {s : Str} (hk : k ≤ d) (hs : '\n' ∉ s) (hc : ∃ c s', s = c :: s' ∧ c ≠ ' ') :
    Left d (line k s) := by
  obtain ⟨c, s', rfl, hc⟩ := hc
  intro X hX l hl
  rw [textLines_ind hs] at hl
  rcases List.mem_cons.1 hl with rfl | hl
  · rw [margin_ind k hc]
    omega
  · exact hX l hl

theorem Plain.left {s o : Str} (h : Plain s o) {d k : Nat} (hk : k ≤ d) : Left d (line k s) := by
  obtain ⟨⟨c, s', rfl, hc⟩, h1, _⟩ := h
  exact left_line hk h1 ⟨c, s', rfl, by rintro rfl; simp at hc⟩

theorem left_lit {d k : Nat} {c : Char} {s : Str} (hk : k ≤ d) (hs : '\n' ∉ c :: s) (hc : c ≠ ' ') :
    Left d (line k (c :: s)) := left_line hk hs ⟨c, s, rfl, hc⟩

theorem left_methodArm {a : MethodArm} (h : ArmNamed Name a) {d k : Nat} (hk : k + 1 ≤ d) : Left d (a.render k) := by
  obtain ⟨hm, hn, hc, hx⟩ := h
  replace hm := fun m h => And.intro (hm m h).1 (Rust.capsIn_name.1 (hm m h).2)
  replace hn := Rust.capsIn_name.1 hn
  have hms : ∀ m ∈ a.modules, Name (toSnakeCase m) := fun m h => (hm m h).1
  unfold MethodArm.render
  rw [Rust.moduleNest_eq]
  simp only [List.nil_append]
  have n1 : '\n' ∉ a.method.byteStr := by cases a.method <;> decide
  have n2 : '\n' ∉ nestText [] a.modules := (reads_nest a.modules [] [] (fun o => reads_nil _ _) hm).1
  have n3 : '\n' ∉ modsText a.modules := (reads_mods hms []).1
  have n4 : '\n' ∉ toCapsCase a.name := (reads_name hn false []).1
  refine (((left_line (by omega) ?_ ?_).append (.flatten fun p hp => ?_)).append (.flatten fun x hx' => ?_)).append
    (left_line (by omega) ?_ ?_)
  · have n5 : '\n' ∉ (if a.isRedirect then c!"Redirect" else c!"Route") := by cases a.isRedirect <;> decide
    simp only [List.mem_append, not_or]
    refine ⟨⟨⟨⟨⟨⟨⟨⟨⟨⟨⟨n1, by decide⟩, n5⟩, by decide⟩, n2⟩, n3⟩, by decide⟩, n4⟩, by decide⟩, n3⟩, n4⟩, by decide⟩
  · cases a.method <;> exact ⟨'b', _, rfl, by decide⟩
  · obtain ⟨c, s', e, hc'⟩ := head_name (hc p hp) c!","
    exact left_line hk (by simp [(reads_name (hc p hp) false []).1]) ⟨c, s', e, by rintro rfl; simp at hc'⟩
  · obtain ⟨c, s', e, hc'⟩ := head_name (hx x hx') c!": None,"
    exact left_line hk (by simp [(reads_name (hx x hx') false []).1]) ⟨c, s', e, by rintro rfl; simp at hc'⟩
  · simp [List.mem_replicate]
  · exact ⟨'}', _, rfl, by decide⟩

mutual
theorem left_stmt : ∀ (s : Stmt) (d k : Nat), k + s.height ≤ d → StmtNamed Name s → Left d (s.render k)
  | .blank, d, k, hk, _ => left_newline d
  | .letStart, d, k, hk, _ => left_lit (by simpa [Stmt.height] using hk) (by decide) (by decide)
  | .addI n, d, k, hk, _ => (plain_add n).left (by simpa [Stmt.height] using hk)
  | .retNotFound, d, k, hk, _ => left_lit (by simpa [Stmt.height] using hk) (by decide) (by decide)
  | .ifThen c body, d, k, hk, h => by
    simp only [Stmt.height] at hk
    have ih := left_block body d (k + 1) (by omega) (by simpa [StmtNamed] using h)
    rw [Stmt.render]
    exact (((plain_if c).left (by omega)).append ih).append (left_lit (by omega) (by decide) (by decide))
  | .matchMethod arms, d, k, hk, h => by
    simp only [Stmt.height] at hk
    have h2 : Left d (arms.map (MethodArm.render (k + 1))).flatten :=
      .flatten fun a ha => left_methodArm ((by simpa [StmtNamed] using h : ∀ a ∈ arms, ArmNamed Name a) a ha) (by omega)
    rw [Stmt.render]
    exact (((left_lit (by omega) (by decide) (by decide)).append h2).append
      (left_lit (by omega) (by decide) (by decide))).append (left_lit (by omega) (by decide) (by decide))
  | .matchPath n arms, d, k, hk, h => by
    simp only [Stmt.height] at hk
    have ih := left_arms arms d (k + 1) (by omega) (by simpa [StmtNamed] using h)
    rw [Stmt.render]
    exact (((plain_matchPath n).left (by omega)).append ih).append (left_lit (by omega) (by decide) (by decide))
  | .whileScan, d, k, hk, _ => by
    simp only [Stmt.height] at hk
    rw [Stmt.render]
    exact ((left_lit (by omega) (by decide) (by decide)).append
      (left_lit (by omega) (by decide) (by decide))).append (left_lit (by omega) (by decide) (by decide))
  | .letText, d, k, hk, _ => plain_letText.left (by simpa [Stmt.height] using hk)
  | .letParam name typ, d, k, hk, h => by
    simp only [Stmt.height] at hk
    have hn : Name name := by simpa [StmtNamed] using h
    rw [Stmt.render]
    refine ((plain_letParam hn).left (by omega)).append (left_line (by omega) ?_ ⟨'.', _, rfl, by decide⟩)
    simp only [List.mem_append, not_or]
    exact ⟨⟨by decide, (reads_name hn false []).1⟩, by decide⟩
theorem left_block : ∀ (b : List Stmt) (d k : Nat), k + blockHeight b ≤ d → BlockNamed Name b → Left d (renderBlock k b)
  | [], d, k, hk, _ => by
    rw [renderBlock]
    exact .nil d
  | s :: b, d, k, hk, h => by
    simp only [BlockNamed] at h
    simp only [blockHeight] at hk
    rw [renderBlock]
    exact (left_stmt s d k (by omega) h.1).append (left_block b d k (by omega) h.2)
theorem left_arm : ∀ (a : Arm) (d k : Nat), k + a.height ≤ d → PathArmNamed Name a → Left d (a.render k)
  | .bytes pat body, d, k, hk, h => by
    simp only [PathArmNamed] at h
    simp only [Arm.height] at hk
    have ih := left_block body d (k + 1) (by omega) h.2
    rw [Arm.render]
    exact (((plain_bytes h.1).left (by omega)).append ih).append (left_lit (by omega) (by decide) (by decide))
  | .wildNotFound, d, k, hk, _ => left_lit (by simpa [Arm.height] using hk) (by decide) (by decide)
  | .wildNothing, d, k, hk, _ => left_lit (by simpa [Arm.height] using hk) (by decide) (by decide)
  | .someSlash, d, k, hk, _ => left_lit (by simpa [Arm.height] using hk) (by decide) (by decide)
  | .stray body, d, k, hk, h => by
    simp only [PathArmNamed] at h
    simp only [Arm.height] at hk
    rw [Arm.render]
    exact left_block body d (k - 1) (by omega) h.1
theorem left_arms : ∀ (as : List Arm) (d k : Nat), k + armsHeight as ≤ d → ArmsNamed Name as → Left d (renderArms k as)
  | [], d, k, hk, _ => by
    rw [renderArms]
    exact .nil d
  | a :: as, d, k, hk, h => by
    simp only [ArmsNamed] at h
    simp only [armsHeight] at hk
    rw [renderArms]
    exact (left_arm a d k (by omega) h.1).append (left_arms as d k (by omega) h.2)
end

end Layout

end Wayfinder
