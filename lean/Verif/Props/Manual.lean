import Verif.Props.Table
/-!
# C64: the two configurations in the documentation of the crate
-/

namespace Wayfinder.Shipped

variable {W : World}

/-- What the route file in the documentation says. -/
def manualFile : RouteConfig where
  headers := [⟨c!"use uuid::Uuid;"⟩]
  routes := .mk [⟨.get, [], c!"Index", false, []⟩]
    [.mk (.static c!"users") (.mk [plain .get c!"Users" c!"List", plain .post c!"Users" c!"Create"]
      [.mk (.dynamic ⟨c!"id", c!"uuid"⟩) (.mk [plain .get c!"Users" c!"Show"] [] [])] [])] []

set_option maxRecDepth 100000 in
theorem manual_read (cfg : ParseCfg) : routeConfig cfg manualText = .ok [] manualFile := by
  obtain ⟨u, a, e⟩ := cfg
  cases e <;> rfl

/-- Both, with the type left open. -/
def manualBlock (typ : Str) : Routes :=
  .mk [⟨.get, [], c!"Index", false, []⟩]
    [.mk (.static c!"users") (.mk [plain .get c!"Users" c!"List", plain .post c!"Users" c!"Create"]
      [.mk (.dynamic ⟨c!"id", typ⟩) (.mk [plain .get c!"Users" c!"Show"] [] [])] [])] []

/-- The block of users. -/
def manualUsersBlock (typ : Str) : Routes :=
  .mk [plain .get c!"Users" c!"List", plain .post c!"Users" c!"Create"]
    [.mk (.dynamic ⟨c!"id", typ⟩) (.mk [plain .get c!"Users" c!"Show"] [] [])] []

theorem go_manualUsers {typ : Str} (hs : Sound (manualUsersBlock typ)) {ps : List Bytes} (hc : Clear ps) (m : Bytes) :
    go W m (manualUsersBlock typ) [] [] ps = manualUsers W typ m ps := by
  unfold manualUsers
  split
  · rename_i hf
    rw [go_finished hf (by simp [manualUsersBlock]), answer_verbs]
    rfl
  · rename_i hf
    cases ps with
    | nil => exact absurd (.inl rfl) hf
    | cons piece more =>
      have hd : NestedRoutes.mk (.dynamic ⟨c!"id", typ⟩) (.mk [plain .get c!"Users" c!"Show"] [] []) ∈ (manualUsersBlock typ).routes :=
        List.mem_singleton.2 rfl
      have ht : Takes (manualUsersBlock typ) ⟨c!"id", typ⟩ (.mk [plain .get c!"Users" c!"Show"] [] []) piece more := by
        refine ⟨hd, rfl, fun s h => (by cases h), fun h1 h2 => ?_⟩
        subst h1 h2
        exact absurd (.inr rfl) hf
      rw [go_takes hs ht hc.head]
      simp only
      cases fromUtf8 piece with
      | none => rfl
      | some text =>
        simp only
        cases W.parse typ text with
        | error e => rfl
        | ok v =>
          simp only
          split
          · rename_i hfm
            rw [go_finished hfm (by simp), answer_verbs]
            rfl
          · rename_i hfm
            exact go_leaf _ (hs.child (.dynamic hd rfl (.here _))) hc.tail hfm m _ _

theorem go_manual {typ : Str} (hs : Sound (manualBlock typ)) {ps : List Bytes} (hc : Clear ps) (m : Bytes) :
    go W m (manualBlock typ) [] [] ps = manualTable W typ m ps := by
  unfold manualTable
  split
  · rename_i hf
    rw [go_finished hf (by simp [manualBlock]), answer_verbs]
    rfl
  · rename_i hf
    cases ps with
    | nil => exact absurd (.inl rfl) hf
    | cons piece more =>
      by_cases he : piece = bytesOf c!"users"
      · subst he
        have hn : NestedRoutes.mk (.static c!"users") (manualUsersBlock typ) ∈ (manualBlock typ).routes := List.mem_singleton.2 rfl
        rw [go_static hs hn (.inl rfl)]
        simp only [if_true]
        exact go_manualUsers (hs.child (.static hn (.here _))) hc.tail m
      · simp only [if_neg he]
        refine go_lost hs hc (fun s sub h => ?_) (fun p sub => no_takes rfl) (fun h1 h2 => ?_) (fun h => h.2.1 rfl) m _ _
        · simp only [manualBlock, Routes.routes_mk, List.mem_singleton, NestedRoutes.mk.injEq, PathSegment.static.injEq] at h
          rw [h.1]; exact Ne.symm he
        · subst h1 h2
          exact absurd (.inr rfl) hf

theorem file_supported : Supported manualFile.routes (bodyOf manualFile.routes) := supported_of (by decide +kernel)
theorem code_supported : Supported manualCode.routes (bodyOf manualCode.routes) := supported_of (by decide +kernel)

theorem manual_inRust (typ : Str) (m : Bytes) (ps : List Bytes) :
    Rust.Outcome.inRust (manualTable W typ m ps) = manualTable W typ m ps := by
  have hu : ∀ ps, Rust.Outcome.inRust (manualUsers W typ m ps) = manualUsers W typ m ps := by
    intro ps
    unfold manualUsers
    split
    · rw [verbs_inRust]; rfl
    · split
      · rfl
      · split
        · rfl
        · split
          · rfl
          · split
            · rw [verbs_inRust]; rfl
            · rfl
  unfold manualTable
  split
  · rw [verbs_inRust]; rfl
  · split
    · rfl
    · split
      · exact hu _
      · rfl

/-- **C64, the file.** The matcher emitted for the route file of the documentation answers every request as the table says, with `uuid` for
the type of ids. -/
theorem C64_file (W : World) (path m : Bytes) : Rust.callText W (Rust.headerToks manualFile.headers) (codegen manualFile).text path m =
    manualTable W c!"uuid" m (cut (stripSlash path)) := by
  rw [Rust.C42_program (Rust.clean_of (by decide +kernel)) file_supported.1 file_supported.2, call_go file_supported,
    show manualFile.routes = manualBlock c!"uuid" from rfl,
    go_manual (file_supported.sound (plainTexts_of (by decide))) (cut_slash _), manual_inRust]

/-- **C64, the code.** So does the one for the code, but with `Uuid` for the type of ids. -/
theorem C64_code (W : World) (path m : Bytes) : Rust.callText W (Rust.headerToks manualCode.headers) (codegen manualCode).text path m =
    manualTable W c!"Uuid" m (cut (stripSlash path)) := by
  rw [Rust.C42_program (Rust.clean_of (by decide +kernel)) code_supported.1 code_supported.2, call_go code_supported,
    show manualCode.routes = manualBlock c!"Uuid" from rfl,
    go_manual (code_supported.sound (plainTexts_of (by decide))) (cut_slash _), manual_inRust]

theorem slash_of_mem {s : Str} (h : '/' ∈ s) : slash ∈ utf8 s := by
  obtain ⟨a, b, rfl⟩ := List.append_of_mem h
  rw [utf8_append, utf8_cons]
  exact List.mem_append_right _ (List.mem_append_left _ (by decide))

/-- **C64, exactly.** The two matchers agree on every request if and only if the types `uuid` and `Uuid` parse every text without a slash
alike; the empty text counts, for it is the id in `/users//`. -/
theorem C64_exact (W : World) :
    (∀ path m : Bytes, Rust.callText W (Rust.headerToks manualFile.headers) (codegen manualFile).text path m =
      Rust.callText W (Rust.headerToks manualCode.headers) (codegen manualCode).text path m) ↔
    ∀ text : Str, '/' ∉ text → W.parse c!"uuid" text = W.parse c!"Uuid" text := by
  constructor
  · intro h text hsl
    have hb := slash_utf8 hsl
    have h := h (slash :: (bytesOf c!"users" ++ slash :: (utf8 text ++ [slash]))) (bytesOf c!"GET")
    rw [C64_file, C64_code, show stripSlash (slash :: (bytesOf c!"users" ++ slash :: (utf8 text ++ [slash]))) =
      bytesOf c!"users" ++ slash :: (utf8 text ++ [slash]) from rfl, cut_append_slash (by decide), cut_append_slash hb,
      show cut [] = [[]] from rfl] at h
    have hf : ¬ Finished [bytesOf c!"users", utf8 text, []] := by
      rintro (h | h) <;> cases h
    have hn : ¬ Finished [utf8 text, []] := by
      rintro (h | h) <;> exact absurd (congrArg List.length h) (by simp)
    have hy : Finished ([[]] : List Bytes) := .inr rfl
    simp only [manualTable, manualUsers, if_neg hf, if_neg hn, if_true, fromUtf8_utf8, if_pos hy] at h
    cases h1 : W.parse c!"uuid" text with
    | error e =>
      cases h2 : W.parse c!"Uuid" text with
      | error e' =>
        rw [h1, h2] at h
        injection h with _ h
        rw [h]
      | ok v =>
        rw [h1, h2] at h
        exact absurd h (by intro h; cases h)
    | ok v =>
      cases h2 : W.parse c!"Uuid" text with
      | error e =>
        rw [h1, h2] at h
        exact absurd h (by intro h; cases h)
      | ok v' =>
        rw [h1, h2] at h
        have h : (act c!"Users" c!"Show" [(c!"id", v)] [] : Outcome W) = act c!"Users" c!"Show" [(c!"id", v')] [] := h
        simp only [act, List.map_cons, List.map_nil, Outcome.route.injEq, RouteVal.mk.injEq, List.cons.injEq, Prod.mk.injEq,
          Val.user.injEq, and_true, true_and] at h
        rw [h]
  · intro h path m
    rw [C64_file, C64_code]
    have hu : ∀ ps, Clear ps → manualUsers W c!"uuid" m ps = manualUsers W c!"Uuid" m ps := by
      intro ps hc
      unfold manualUsers
      split
      · rfl
      · rename_i hf
        cases ps with
        | nil => rfl
        | cons piece more =>
          simp only
          cases hp : fromUtf8 piece with
          | none => rfl
          | some text =>
            simp only
            have hb := utf8_of_fromUtf8 hp
            rw [h text fun hs => hc piece (List.mem_cons_self ..) (hb ▸ slash_of_mem hs)]
    have hc := cut_slash (stripSlash path)
    unfold manualTable
    split
    · rfl
    · cases hps : cut (stripSlash path) with
      | nil => rfl
      | cons piece more =>
        rw [hps] at hc
        simp only
        split
        · exact hu _ (Clear.tail hc)
        · rfl

/-- **C64 (partial).** The two configurations that the documentation of the crate calls equivalent get the same answers if the types
`uuid` and `Uuid` parse alike.

Missing: the condition cannot be dropped (`C64_equivalent_false`); the file writes `{id: uuid}` where the code has `param!(id: Uuid)`.
The condition that is necessary and sufficient is in `C64_exact`. -/
theorem C64_equivalent_partial {W : World} (h : W.parse c!"uuid" = W.parse c!"Uuid") (path m : Bytes) :
    Rust.callText W (Rust.headerToks manualFile.headers) (codegen manualFile).text path m =
      Rust.callText W (Rust.headerToks manualCode.headers) (codegen manualCode).text path m :=
  (C64_exact W).2 (fun _ _ => by rw [h]) path m

/-- **C64, refuted.** The route file of the documentation is accepted, but the configuration it gives is not that of the code, and there are
types for which the two matchers answer differently. -/
theorem C64_equivalent_false : (∀ cfg, ∃ c, routeConfig cfg manualText = .ok [] c ∧ c ≠ manualCode) ∧
    ∃ (W : World) (path m : Bytes), Rust.callText W (Rust.headerToks manualFile.headers) (codegen manualFile).text path m ≠
      Rust.callText W (Rust.headerToks manualCode.headers) (codegen manualCode).text path m := by
  refine ⟨fun cfg => ⟨manualFile, manual_read cfg, ?_⟩, uuids, bytesOf c!"/users/7", verbBytes .get, ?_⟩
  · intro h
    have := congrArg (fun c : RouteConfig => c.stringify) h
    exact absurd this (by decide +kernel)
  · rw [C64_file, C64_code]
    intro h
    have h : act c!"Users" c!"Show" [(c!"id", c!"7")] [] = (Outcome.err c!"id" c!"invalid character" : Outcome uuids) := h
    cases h

end Wayfinder.Shipped
