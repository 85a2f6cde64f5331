import Verif.Props.Size
import Verif.Proofs.FileSize
import Verif.Props.Whole
/-!
# C90: the size of the emitted file
-/

namespace Wayfinder

variable {c : RouteConfig} {body : List Stmt}

/-- **C90.** The exact number of lines of an emitted file: what is declared, and the statements of `match_route`. -/
theorem C90_exact (h : (codegen c).fail = none) (hb : matcherBody c.routes = .ok body) (h1 : c.routes.oneLined = true) :
    lineCount (codegen c).text = declarationLines c + lineCount (renderBlock 2 body) := by
  obtain ⟨root, body', hr, hb', e⟩ := Rust.codegen_text h
  obtain rfl : body' = body := by rw [hb] at hb'; exact (Except.ok.inj hb').symm
  have hspec := modulesRoot_spec hr
  have ht : TreeOneLined root := by
    refine ⟨fun mods a ha => entries_oneLined h1 ((hspec.2.2 mods a).1 ha), ?_⟩
    cases hf : flattenModules c.routes with
    | none => simp [modulesRoot, hf] at hr
    | some m =>
      simp only [modulesRoot, hf, Option.map_some, Option.some.injEq] at hr
      rw [← hr]
      obtain ⟨ms, as⟩ := m
      simp only [Module.finalize, FlattenedModule.name]
      decide
  have e1 := module_count c.headers root 1 hspec.1 ht
  have e2 : (root.all.map fun e => structLines e.2.fields).sum = ((c.routes.structs 0).map fun x => structLines x.2).sum := by
    rw [← c.routes.entries_structs, List.map_map]
    exact ((all_perm hr).map _).sum_nat
  have e3 := (places_perm hr).length_eq
  rcases stringify_ends c.routes 1 with h0 | ⟨s, hs⟩
  · exact absurd (stringify_eq_nil.1 h0) (Rust.codegen_nonempty h)
  have e4 : lineCount (configComment c.routes).text = c.routes.itemCount := by
    rw [← routes_count h1 1, hs, Rust.configComment_text hs, lineCount_append, lineCount_append, lineCount_append, commentLines_count,
      lineCount_zero (s := c!"    //! ") (by decide)]
    omega
  have e5 : lineCount prelude1 + lineCount prelude2 + lineCount c!"\n" + lineCount fixedPart + lineCount postlude = 109 := by decide +kernel
  rw [e2, e3] at e1
  have e6 : (17 + headerLines c.headers) * c.routes.moduleNames.length =
      17 * c.routes.moduleNames.length + c.routes.moduleNames.length * headerLines c.headers := by
    rw [Nat.add_mul, Nat.mul_comm (headerLines _)]
  have e7 : (1 + c.routes.moduleNames.length) * headerLines c.headers =
      headerLines c.headers + c.routes.moduleNames.length * headerLines c.headers := by rw [Nat.add_mul, Nat.one_mul]
  rw [e]
  simp only [lineCount_append, e1, e4, declarationLines, e6, e7]
  omega

/-- **C90, in terms of the configuration only.** With C61: besides declarations and literals at most 47 lines for every child. -/
theorem C90_bound (h : (codegen c).fail = none) (hb : matcherBody c.routes = .ok body) (hc : compiles body = true)
    (h1 : c.routes.oneLined = true) :
    lineCount (codegen c).text ≤ declarationLines c + 6 + 47 * c.routes.nestedCount
      + sumOver MethodArm.lineCount (c.routes.ownLiterals [] [])
      + 2 * sumOver MethodArm.lineCount (c.routes.literalsBelow [] []) := by
  have := C61_lines hb hc (Routes.oneLine_of h1)
  rw [C90_exact h hb h1]
  simp only [matcherText, hb, Out.write] at this
  omega

/-- **C90, headers.** A further header is written once for every module and once outside of them. -/
theorem C90_header {hs : List Header} {x : Header} {r : Routes} (h : (codegen ⟨hs ++ [x], r⟩).fail = none) (hne : hs ≠ [])
    (h1 : r.oneLined = true) :
    lineCount (codegen ⟨hs ++ [x], r⟩).text = lineCount (codegen ⟨hs, r⟩).text + (1 + r.moduleNames.length) * (1 + lineCount x.text) := by
  obtain ⟨root, body, hr, hb, -⟩ := Rust.codegen_text h
  have h' : (codegen ⟨hs, r⟩).fail = none := by
    have h2 := (C20_exact _).1 h
    rw [C20_exact]
    exact h2
  rw [C90_exact h hb h1, C90_exact h' hb h1]
  have e : headerLines (hs ++ [x]) = headerLines hs + (1 + lineCount x.text) := by
    simp only [headerLines, if_neg hne, List.append_eq_nil_iff, List.cons_ne_nil, and_false, if_false, List.map_append, List.sum_append,
      List.map_cons, List.map_nil, List.sum_cons, List.sum_nil]
    omega
  simp only [declarationLines, e, Nat.mul_add]
  omega

/-! ## Examples -/

namespace Demo

/-- The configuration of the tests: seven actions in two modules, all with the query parameter of `/`. -/
example : lineCount (codegen (conf people)).text = declarationLines (conf people) + lineCount (renderBlock 2 (bodyOf people)) :=
  C90_exact people_clean.generated people_supported.generated (by decide +kernel)

example : people.moduleNames = [[c!"home"], [c!"people"]] ∧ (people.structs 0).map Prod.snd = [1, 1, 1, 1, 3, 4, 1] := by decide +kernel

/-- One more header is three more lines. -/
example (x : Header) (hx : '\n' ∉ x.text) (h : (codegen ⟨[⟨c!"use uuid::Uuid;"⟩] ++ [x], people⟩).fail = none) :
    lineCount (codegen ⟨[⟨c!"use uuid::Uuid;"⟩] ++ [x], people⟩).text = lineCount (codegen (conf people)).text + 3 := by
  have e : people.moduleNames.length = 2 := by decide +kernel
  have e2 : (codegen (conf people)).text = (codegen ⟨[⟨c!"use uuid::Uuid;"⟩], people⟩).text := by rw [conf]
  rw [C90_header h (by simp) (by decide +kernel), e, lineCount_zero hx, e2]

/-- `n` comments as headers, and one action inside of `n` modules. -/
def deep (n : Nat) : RouteConfig := ⟨List.replicate n ⟨c!"//"⟩, .mk [⟨.get, List.replicate n c!"m", c!"X", false, []⟩] [] []⟩

theorem deep_generated (n : Nat) : (codegen (deep n)).fail = none := by
  refine (C20_exact _).2 ⟨?_, by simp [deep, DistinctActions, Routes.allResources, allResourcesL], by simp [deep]⟩
  intro segs q node hr
  cases hr with
  | here => simp [deep]
  | child h => simp [deep] at h

theorem deep_oneLined (n : Nat) : (deep n).routes.oneLined = true := by
  have h1 : oneLine c!"m" = true := by decide
  have h2 : oneLine c!"X" = true := by decide
  simp [deep, Routes.oneLined, Resource.oneLined, nestedOneLined, h1, h2]

theorem deep_modules (n : Nat) : n ≤ (deep n).routes.moduleNames.length := by
  have h1 : ((List.range n).map fun k => List.replicate (k + 1) c!"m").Nodup := by
    refine List.nodup_range.map fun a b h => ?_
    simpa using congrArg List.length h
  have h2 : ((List.range n).map fun k => List.replicate (k + 1) c!"m") ⊆ (deep n).routes.moduleNames := by
    intro p hp
    obtain ⟨k, hk, rfl⟩ := List.mem_map.1 hp
    have hk := List.mem_range.1 hk
    simp only [deep, Routes.moduleNames, Routes.structs, nestedStructs, List.mem_dedup, List.mem_flatMap]
    refine ⟨(List.replicate n c!"m", 0), by simp, List.mem_filter.2 ⟨(List.mem_inits _ _).2 ⟨List.replicate (n - (k + 1)) c!"m", ?_⟩, by simp⟩⟩
    rw [List.replicate_append_replicate]
    congr 1
    omega
  simpa using (h1.subperm h2).length_le

theorem flatten_replicate_length {α : Type} (n : Nat) (s : List α) : (List.replicate n s).flatten.length = n * s.length := by
  simp

/-- **C90, the cost of repeating the headers.** The number of lines of the emitted file is not linear in the number
of characters of the route file. -/
theorem C90_quadratic (a b : Nat) : ∃ c : RouteConfig, (codegen c).fail = none ∧
    a + b * c.stringify.length < lineCount (codegen c).text := by
  refine ⟨deep (a + 16 * b + 16), deep_generated _, ?_⟩
  generalize hn : a + 16 * b + 16 = n
  obtain ⟨root, body, hr, hb, -⟩ := Rust.codegen_text (deep_generated n)
  rw [C90_exact (deep_generated n) hb (deep_oneLined n)]
  have h1 := deep_modules n
  have h2 : n ≤ headerLines (deep n).headers := by
    have hne : (deep n).headers ≠ [] := by
      intro h0
      have := congrArg List.length h0
      simp [deep] at this
      omega
    have hl : ((deep n).headers.map fun h => 1 + lineCount h.text).sum = n := by
      have e : lineCount c!"//" = 0 := rfl
      simp [deep, e]
    rw [headerLines, if_neg hne, hl]
    omega
  have h3 : n * n ≤ (1 + (deep n).routes.moduleNames.length) * headerLines (deep n).headers :=
    Nat.mul_le_mul (by omega) h2
  have h4 : (deep n).stringify.length ≤ 6 * n + 16 := by
    simp only [RouteConfig.stringify, deep, Routes.stringify, stringifyParams, stringifyResources, stringifyNested, Resource.stringify,
      List.map_replicate, List.length_append, flatten_replicate_length]
    simp
    split <;> simp [indent, Method.display] <;> omega
  have h5 : a + b * (deep n).stringify.length < n * n := by
    have g1 : b * (deep n).stringify.length ≤ b * (7 * n) := Nat.mul_le_mul_left _ (by omega)
    have g2 : b * (7 * n) = 7 * b * n := by rw [← Nat.mul_assoc, Nat.mul_comm b 7]
    have g3 : (a + 7 * b + 1) * n ≤ n * n := Nat.mul_le_mul_right _ (by omega)
    have g4 : a ≤ a * n := Nat.le_mul_of_pos_right _ (by omega)
    simp only [Nat.add_mul] at g3
    omega
  simp only [declarationLines]
  omega

end Demo

end Wayfinder
