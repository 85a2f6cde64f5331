import Verif.Spec.Split
import Verif.Props.Shipped
import Verif.Props.Mount
import Verif.Props.Order
import Verif.Props.Generation
/-!
# Configurations put together by mounting: C86
-/

namespace Wayfinder

theorem reordered_symm {r r' : Routes} (h : Reordered r r') : Reordered r' r := by
  induction h with
  | refl r => exact .refl r
  | trans _ _ ih1 ih2 => exact .trans ih2 ih1
  | swap rs pre a b post qs => exact .swap rs pre b a post qs
  | inner rs pre seg post qs _ ih => exact .inner rs pre seg post qs ih

theorem reordered_perm {rs : List Resource} {qs : List Param} {ns ns' : List NestedRoutes} (h : ns.Perm ns') :
    ∀ pre, Reordered (.mk rs (pre ++ ns) qs) (.mk rs (pre ++ ns') qs) := by
  induction h with
  | nil => intro pre; exact .refl _
  | cons a _ ih => intro pre; simpa using ih (pre ++ [a])
  | swap a b l => intro pre; exact .swap rs pre b a l qs
  | trans _ _ ih1 ih2 => intro pre; exact .trans (ih1 pre) (ih2 pre)

theorem reordered_empty {r r' : Routes} (h : Reordered r r') : r = .mk [] [] [] ↔ r' = .mk [] [] [] := by
  induction h with
  | refl r => rfl
  | trans _ _ ih1 ih2 => exact ih1.trans ih2
  | swap rs pre a b post qs => simp
  | inner rs pre seg post qs _ ih => simp

theorem hasRoute_reordered {r r' : Routes} (h : Reordered r r') : ∀ {segs query node}, HasRoute r segs query node →
    ∃ node', HasRoute r' segs query node' ∧ node'.resources = node.resources ∧ node'.queryParameters = node.queryParameters := by
  induction h with
  | refl r => intro segs query node h; exact ⟨_, h, rfl, rfl⟩
  | trans _ _ ih1 ih2 =>
    intro segs query node h
    obtain ⟨n1, h1, e1, e2⟩ := ih1 h
    obtain ⟨n2, h2, e3, e4⟩ := ih2 h1
    exact ⟨n2, h2, e3.trans e1, e4.trans e2⟩
  | swap rs pre a b post qs =>
    intro segs query node h
    cases h with
    | here => exact ⟨_, .here _, rfl, rfl⟩
    | child hm hr =>
      exact ⟨_, .child (r := .mk rs (pre ++ b :: a :: post) qs) (by
        simp only [Routes.routes, List.mem_append, List.mem_cons] at hm ⊢; tauto) hr, rfl, rfl⟩
  | inner rs pre seg post qs _ ih =>
    intro segs query node h
    cases h with
    | here => exact ⟨_, .here _, rfl, rfl⟩
    | @child _ _ seg' sub0 segs' query' hm hr =>
      simp only [Routes.routes, List.mem_append, List.mem_cons, NestedRoutes.mk.injEq] at hm
      rcases hm with hm | ⟨rfl, rfl⟩ | hm
      · exact ⟨_, .child (r := .mk rs (pre ++ .mk seg _ :: post) qs) (by simp [Routes.routes, hm]) hr, rfl, rfl⟩
      · obtain ⟨n, hn, e1, e2⟩ := ih hr
        exact ⟨n, .child (r := .mk rs (pre ++ .mk seg' _ :: post) qs) (by simp [Routes.routes]) hn, e1, e2⟩
      · exact ⟨_, .child (r := .mk rs (pre ++ .mk seg _ :: post) qs) (by simp [Routes.routes, hm]) hr, rfl, rfl⟩

theorem words_reordered {r r' : Routes} (h : Reordered r r') (hw : Rust.Words r) : Rust.Words r' := by
  have h' := @hasRoute_reordered _ _ (reordered_symm h)
  refine ⟨fun hr => ?_, fun hr => ?_, fun hr => ?_, fun hr => ?_⟩
  all_goals obtain ⟨n, hn, e1, e2⟩ := h' hr
  · exact hw.segs hn
  · exact hw.types hn
  · rw [← e2]; exact hw.query hn
  · rw [← e1]; exact hw.resources hn

theorem codeOf_newline (a b : Str) : codeOf (a ++ '\n' :: b) = codeOf a ++ codeOf b := by
  simp [codeOf, textLines_newline]

/-- The comment with the configuration has no code. -/
theorem codeOf_comment {r : Routes} (h : r ≠ .mk [] [] []) (X : Str) : codeOf ((configComment r).text ++ X) = codeOf X := by
  rcases stringify_ends r 1 with h0 | ⟨s, hs⟩
  · exact absurd (stringify_eq_nil.1 h0) h
  rw [Rust.configComment_text hs]
  obtain ⟨l, ls, -, e⟩ := textLines_commentLines s c!"    //! " X (by decide)
  have : c!"    //! " ++ commentLines s ++ c!"\n" ++ X = c!"    //! " ++ (commentLines s ++ '\n' :: X) := by simp
  have hp : ∀ l : Str, (c!"    //!").isPrefixOf (c!"    //! " ++ l) = true := fun l => rfl
  rw [this, codeOf, e]
  simp only [codeOf, List.filter_cons, hp, Bool.not_true, Bool.false_eq_true, if_false, List.filter_append]
  rw [List.append_left_eq_self, List.filter_eq_nil_iff]
  intro x hx
  obtain ⟨y, _, rfl⟩ := List.mem_map.1 hx
  simp only [hp, Bool.not_true, Bool.false_eq_true, not_false_eq_true]

theorem prelude1_line : ∃ a, prelude1 = a ++ c!"\n" := ⟨prelude1.dropLast, by decide +kernel⟩

/-- **C86, the order of blocks.** If two configurations have the same headers and differ in the order of blocks only, in whatever blocks,
then generation ends in the same way for both and the emitted files have the same code: they differ in the comment
that shows the configuration. -/
theorem C86_code {c c' : RouteConfig} (hh : c.headers = c'.headers) (h : Reordered c.routes c'.routes) :
    (codegen c).fail = (codegen c').fail ∧ codeOf (codegen c).text = codeOf (codegen c').text := by
  obtain ⟨p, hp⟩ := prelude1_line
  have hm := C18_modules h
  have ht := (C18_order h).2
  unfold codegen
  rw [← hm]
  cases modulesRoot c.routes with
  | none => exact ⟨rfl, rfl⟩
  | some root =>
    by_cases he : c.routes = .mk [] [] []
    · have he' := (reordered_empty h).1 he
      obtain ⟨h1, r1⟩ := c
      obtain ⟨h2, r2⟩ := c'
      cases hh; cases he; cases he'
      exact ⟨rfl, rfl⟩
    · have he' := fun e => he ((reordered_empty h).2 e)
      have hc : ∀ {r : Routes}, r ≠ .mk [] [] [] → (configComment r).fail = none := by
        intro r hr
        rw [configComment_fail, if_neg]
        rw [List.isEmpty_iff, stringify_eq_nil]
        exact hr
      have key : ∀ (r : Routes) (hr : r ≠ .mk [] [] []) (X : Out),
          ((Out.write prelude1).andThen ((configComment r).andThen X)).fail = X.fail ∧
          codeOf ((Out.write prelude1).andThen ((configComment r).andThen X)).text = codeOf p ++ codeOf X.text := by
        intro r hr X
        simp only [Out.andThen, Out.write, hc hr, true_and]
        rw [hp, show p ++ c!"\n" ++ ((configComment r).text ++ X.text) = p ++ '\n' :: ((configComment r).text ++ X.text) by simp,
          codeOf_newline, codeOf_comment hr]
      simp only [codegenFrom]
      rw [(key _ he _).1, (key _ he _).2, (key _ he' _).1, (key _ he' _).2, hh, ht]
      exact ⟨rfl, rfl⟩

/-- **C86, the program.** So it is accepted exactly if the other is, and both programs do the same. -/
theorem C86_program {c c' : RouteConfig} (hh : c.headers = c'.headers) (h : Reordered c.routes c'.routes) (hg : (codegen c).fail = none)
    (hr : Rust.HeadersRead c.headers) (hw : Rust.Words c.routes) :
    (∀ W path m, Rust.callText W (Rust.headerToks c.headers) (codegen c).text path m =
      Rust.callText W (Rust.headerToks c'.headers) (codegen c').text path m) ∧
    Rust.readText (Rust.headerToks c.headers) (codegen c).text = Rust.readText (Rust.headerToks c'.headers) (codegen c').text := by
  have hg' := (C86_code hh h).1.symm.trans hg
  obtain ⟨root, body, h1, h2, -⟩ := Rust.codegen_text hg
  have e1 := Rust.codegen_lex hg hr hw h1 h2
  have e2 := Rust.codegen_lex hg' (hh ▸ hr) (words_reordered h hw) ((C18_modules h).symm.trans h1) ((C18_order h).1.symm.trans h2)
  have e : Rust.readText (Rust.headerToks c.headers) (codegen c).text = Rust.readText (Rust.headerToks c'.headers) (codegen c').text := by
    unfold Rust.readText
    rw [e1, e2, hh]
  exact ⟨fun W path m => by unfold Rust.callText; rw [e], e⟩

/-- **C86, splitting.** A configuration whose blocks are moved into configurations of their own, which are then mounted where the blocks
were, is the same up to the order of blocks; so with the same headers the emitted file has the same code. -/
theorem C86_split {c base : RouteConfig} {ms : List (Str × RouteConfig)} (h : SplitInto c base ms) :
    Reordered c.routes (base.mountAll ms).routes ∧
    (ms ≠ [] → FirstSeen (base.headers ++ ms.flatMap fun m => m.2.headers) c.headers →
      (base.mountAll ms).headers = c.headers ∧ (codegen c).fail = (codegen (base.mountAll ms)).fail ∧
      codeOf (codegen c).text = codeOf (codegen (base.mountAll ms)).text) := by
  have hr : Reordered c.routes (base.mountAll ms).routes := by
    have e : (base.mountAll ms).routes = .mk base.routes.resources
        (base.routes.routes ++ ms.map fun m => .mk (.static m.1) m.2.routes) base.routes.queryParameters := by
      cases ms with
      | nil => obtain ⟨h, ⟨rs, ns, qs⟩⟩ := base; simp [RouteConfig.mountAll]
      | cons m ms => exact (C36_mount_headers base (m :: ms) (by simp)).2
    obtain ⟨hs, ⟨rs, ns, qs⟩⟩ := c
    obtain ⟨h1, h2, h3⟩ := h
    simp only [Routes.resources, Routes.queryParameters, Routes.routes] at h1 h2 h3
    subst h1 h2
    rw [e]
    exact reordered_perm h3 []
  refine ⟨hr, fun hne hf => ?_⟩
  have hh := ((C36_mount_headers base ms hne).1).eq hf
  exact ⟨hh, C86_code hh.symm hr⟩

/-- **C86, mounting in another order.** The routes are the same up to the order of blocks, and the headers the same up to their order; if the
configurations mounted have no headers that the base has not, the emitted files have the same code. -/
theorem C86_order {base : RouteConfig} {ms ms' : List (Str × RouteConfig)} (h : ms.Perm ms') :
    Reordered (base.mountAll ms).routes (base.mountAll ms').routes ∧
    (base.mountAll ms).headers.Perm (base.mountAll ms').headers ∧
    ((∀ m ∈ ms, ∀ x ∈ m.2.headers, x ∈ base.headers) →
      (codegen (base.mountAll ms)).fail = (codegen (base.mountAll ms')).fail ∧
      codeOf (codegen (base.mountAll ms)).text = codeOf (codegen (base.mountAll ms')).text) := by
  by_cases hne : ms = []
  · subst hne
    obtain rfl := h.nil_eq
    exact ⟨.refl _, .refl _, fun _ => ⟨rfl, rfl⟩⟩
  have hne' : ms' ≠ [] := fun e => hne (by rw [e] at h; exact h.eq_nil)
  obtain ⟨f1, e1⟩ := C36_mount_headers base ms hne
  obtain ⟨f2, e2⟩ := C36_mount_headers base ms' hne'
  have hr : Reordered (base.mountAll ms).routes (base.mountAll ms').routes := by
    rw [e1, e2]
    exact reordered_perm (h.map _) _
  have hn : ∀ {all k : List Header}, FirstSeen all k → k.Nodup := by
    intro all k hf
    refine List.Pairwise.imp ?_ hf.2
    rintro a b h rfl
    omega
  refine ⟨hr, ?_, fun hs => C86_code ?_ hr⟩
  · rw [List.perm_ext_iff_of_nodup (hn f1) (hn f2)]
    intro x
    rw [f1.1, f2.1]
    simp only [List.mem_append, List.mem_flatMap, h.mem_iff]
  · have key : ∀ {ms : List (Str × RouteConfig)}, (∀ m ∈ ms, ∀ x ∈ m.2.headers, x ∈ base.headers) →
        ∀ {k}, FirstSeen (base.headers ++ ms.flatMap fun m => m.2.headers) k → FirstSeen base.headers k := by
      intro ms hs k hf
      have hm : ∀ x, x ∈ k ↔ x ∈ base.headers := by
        intro x
        rw [hf.1, List.mem_append, or_iff_left_iff_imp]
        intro hx
        obtain ⟨m, hm, hx⟩ := List.mem_flatMap.1 hx
        exact hs m hm x hx
      refine ⟨hm, hf.2.imp_of_mem ?_⟩
      intro a b ha hb hab
      rwa [List.idxOf_append_of_mem ((hm a).1 ha), List.idxOf_append_of_mem ((hm b).1 hb)] at hab
    exact (key hs f1).eq (key (fun m hm => hs m (h.mem_iff.2 hm)) f2)

/-- **C86, parts within parts.** If the configurations mounted are replaced by others that differ in the order of blocks (because they are split up
themselves), so does the whole. -/
theorem C86_parts {base : RouteConfig} {ms ms' : List (Str × RouteConfig)} (h : SameParts ms ms') :
    Reordered (base.mountAll ms).routes (base.mountAll ms').routes := by
  have key : ∀ {ms ms' : List (Str × RouteConfig)}, SameParts ms ms' → ∀ (rs : List Resource) (pre : List NestedRoutes) (qs : List Param),
      Reordered (.mk rs (pre ++ ms.map fun m => .mk (.static m.1) m.2.routes) qs)
        (.mk rs (pre ++ ms'.map fun m => .mk (.static m.1) m.2.routes) qs) := by
    intro ms ms' h
    induction h with
    | nil => intro rs pre qs; exact .refl _
    | @cons x c c' ms ms' hm _ ih =>
      intro rs pre qs
      refine .trans (.inner rs pre (.static x) _ qs hm) ?_
      have := ih rs (pre ++ [.mk (.static x) c'.routes]) qs
      simpa using this
  have e : ∀ ms : List (Str × RouteConfig), (base.mountAll ms).routes = .mk base.routes.resources
      (base.routes.routes ++ ms.map fun m => .mk (.static m.1) m.2.routes) base.routes.queryParameters := by
    intro ms
    cases ms with
    | nil => obtain ⟨h, ⟨rs, ns, qs⟩⟩ := base; simp [RouteConfig.mountAll]
    | cons m ms => exact (C36_mount_headers base (m :: ms) (by simp)).2
  rw [e, e]
  exact key h _ _ _

namespace Shipped

/-- The example application, split up. -/
def cliBase : RouteConfig := ⟨[⟨c!"use uuid::Uuid;"⟩],
  .mk [] [.mk (.static c!"users") (.mk [⟨.get, [c!"People"], c!"Index", true, []⟩] [] [])] [⟨c!"lang", c!"String"⟩]⟩

/-- **C86, the example.** The route file of the example and the parts of the structured example with the redirect of the route file, mounted in
any order, give the same code.  With the order changed, the comment is another. -/
theorem C86_example {ms : List (Str × RouteConfig)} (h : ms.Perm [(c!"books", books), (c!"people", people)]) :
    codeOf (codegen cli).text = codeOf (codegen (cliBase.mountAll ms)).text ∧
    (codegen cli).text ≠ (codegen (cliBase.mountAll [(c!"books", books), (c!"people", people)])).text := by
  have hs : SplitInto cli cliBase [(c!"people", people), (c!"books", books)] := ⟨rfl, rfl, .refl _⟩
  have h1 := (C86_split hs).2 (by simp) ⟨by simp [cli, cliBase, people, books], by simp [cli]⟩
  have h2 := (C86_order (base := cliBase) (h.trans (.swap _ _ _))).2.2 (by
    intro m hm
    have := h.mem_iff.1 hm
    simp only [List.mem_cons, List.not_mem_nil, or_false] at this
    rcases this with rfl | rfl <;> decide)
  exact ⟨h1.2.2.trans h2.2.symm, by decide +kernel⟩

end Shipped

end Wayfinder
