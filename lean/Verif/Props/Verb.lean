import Verif.Props.Routing
import Verif.Props.Exact
import Verif.Tests.Demo
/-!
# C72: what `match_route` does with the method

The method is looked at once, at the end, and compared byte by byte with the verbs of one block.
-/

namespace Wayfinder

variable {W : World} {r : Routes} {body : List Stmt}

/-! ## All programs of the generator's language -/

/-- A flow in which no verb was compared. -/
def Flow.unasked : Flow W → Prop
  | .next _ => True
  | .ret o => o.answered = false

/-- A family of flows, one for each method: all the same without a verb compared, or that of one `match method`. -/
def LateMethod (f : Bytes → Flow W) : Prop :=
  (∃ o : Flow W, o.unasked ∧ ∀ m, f m = o) ∨ ∃ arms s, ∀ m, f m = .ret (execMethods m s arms)

theorem LateMethod.same {o : Flow W} (h : o.unasked) : LateMethod fun _ => o := .inl ⟨o, h, fun _ => rfl⟩

/-- A block is left: the variables declared in it are gone. -/
def Flow.leave (env : List (Str × Val W)) : Flow W → Flow W
  | .ret o => .ret o
  | .next s => .next { s with env := env }

theorem LateMethod.leave {f : Bytes → Flow W} (h : LateMethod f) (env : List (Str × Val W)) :
    LateMethod fun m => (f m).leave env := by
  rcases h with ⟨o, ho, h⟩ | ⟨arms, s, h⟩
  · refine .inl ⟨o.leave env, ?_, fun m => by simp [h m]⟩
    cases o <;> first | exact ho | trivial
  · exact .inr ⟨arms, s, fun m => by simp [h m, Flow.leave]⟩

mutual
theorem Stmt.exec_late (path : Bytes) : ∀ (st : Stmt) (s : State W), LateMethod fun m => st.exec path m s
  | .blank, s => by simp only [Stmt.exec]; exact .same trivial
  | .letStart, s => by
    simp only [Stmt.exec]
    split
    · exact .same rfl
    · exact .same trivial
  | .addI n, s => by
    simp only [Stmt.exec]
    split
    · exact .same trivial
    · exact .same rfl
  | .retNotFound, s => by simp only [Stmt.exec]; exact .same rfl
  | .ifThen c body, s => by
    simp only [Stmt.exec]
    split
    · exact .same rfl
    · have := (execBlock_late path body s).leave s.env
      convert this using 2 with m
      cases execBlock path m body s <;> rfl
    · exact .same trivial
  | .matchMethod arms, s => by
    simp only [Stmt.exec]
    split
    · exact .inr ⟨arms, s, fun _ => rfl⟩
    · exact .same rfl
  | .matchPath n arms, s => by
    simp only [Stmt.exec]
    split
    · split
      · exact execArms_late path _ arms s
      · exact .same rfl
    · exact .same rfl
  | .whileScan, s => by
    simp only [Stmt.exec]
    split
    · split
      · exact .same rfl
      · exact .same trivial
    · exact .same rfl
  | .letText, s => by
    simp only [Stmt.exec]
    split
    · split
      · split
        · exact .same rfl
        · exact .same trivial
      · exact .same rfl
    · exact .same rfl
  | .letParam name typ, s => by
    simp only [Stmt.exec]
    split
    · split
      · exact .same rfl
      · exact .same trivial
    · exact .same rfl
theorem execBlock_late (path : Bytes) : ∀ (sts : List Stmt) (s : State W), LateMethod fun m => execBlock path m sts s
  | [], s => by simp only [execBlock]; exact .same trivial
  | st :: sts, s => by
    simp only [execBlock]
    rcases Stmt.exec_late path st s with ⟨o, ho, h⟩ | ⟨arms, s', h⟩
    · simp only [h]
      cases o with
      | ret o => exact .same ho
      | next s' => exact execBlock_late path sts s'
    · exact .inr ⟨arms, s', fun m => by simp only [h]⟩
theorem Arm.exec_late (path slice : Bytes) : ∀ (a : Arm) (s : State W),
    (∀ m, a.exec path m slice s = none) ∨ ∃ f, LateMethod f ∧ ∀ m, a.exec path m slice s = some (f m)
  | .bytes pat body, s => by
    simp only [Arm.exec]
    split
    · refine .inr ⟨_, (execBlock_late path body s).leave s.env, fun m => ?_⟩
      cases execBlock path m body s <;> rfl
    · exact .inl fun _ => rfl
  | .wildNotFound, s => .inr ⟨_, .same (o := .ret .notFound) rfl, fun _ => by simp only [Arm.exec]⟩
  | .wildNothing, s => .inr ⟨_, .same (o := .next s) trivial, fun _ => by simp only [Arm.exec]⟩
  | .someSlash, s => .inr ⟨_, .same (o := .ret .rejected) rfl, fun _ => by simp only [Arm.exec]⟩
  | .stray _, s => .inr ⟨_, .same (o := .ret .rejected) rfl, fun _ => by simp only [Arm.exec]⟩
theorem execArms_late (path slice : Bytes) : ∀ (as : List Arm) (s : State W),
    LateMethod fun m => execArms path m slice as s
  | [], s => by simp only [execArms]; exact .same rfl
  | a :: as, s => by
    simp only [execArms]
    rcases Arm.exec_late path slice a s with h | ⟨f, hf, h⟩
    · simp only [h]; exact execArms_late path slice as s
    · simp only [h]; exact hf
end

theorem execMethods_other {s : State W} {m : Bytes} (hm : ∀ v : Method, m ≠ verbBytes v) :
    ∀ arms, execMethods m s arms = .notAllowed
  | [] => rfl
  | a :: as => by
    have : m ≠ a.method.display.map asciiByte := by
      have := hm a.method
      revert this
      cases a.method <;> exact id
    simp only [execMethods, if_neg this]
    exact execMethods_other hm as

/-- **C72, any program.** Whatever the emitted function is (whatever its variables are called, whether rustc accepts it or not), for
every path the answers to two methods are the same unless one of them is one of the four verbs; and answers other than matches
and `NotAllowed` (which the program can only give behind a comparison of the method) to an unknown method are the answers to all
methods. -/
theorem C72_program (body : List Stmt) (path : Bytes) {m m' : Bytes} (hm : ∀ v : Method, m ≠ verbBytes v) :
    ((∀ v : Method, m' ≠ verbBytes v) → callMatchRoute W body path m' = callMatchRoute W body path m) ∧
    (callMatchRoute W body path m ≠ .notAllowed → callMatchRoute W body path m' = callMatchRoute W body path m) ∧
    (∀ red v, ¬ (callMatchRoute W body path m).isMatch red v) := by
  simp only [callMatchRoute]
  split
  · rcases execBlock_late path body (initialState W path) with ⟨o, ho, h⟩ | ⟨arms, s, h⟩
    · simp only [h]
      refine ⟨fun _ => trivial, fun _ => trivial, fun red v hv => ?_⟩
      cases o with
      | next s => cases red <;> cases hv
      | ret o =>
        simp only [Flow.unasked] at ho
        simp only [Outcome.isMatch] at hv
        cases red <;> simp [hv, Outcome.answered] at ho
    · simp only [h, execMethods_other hm]
      refine ⟨fun hm' => execMethods_other hm' _, fun h => absurd rfl h, fun red v hv => ?_⟩
      cases red <;> cases hv
  · refine ⟨fun _ => rfl, fun _ => rfl, fun red v hv => ?_⟩
    cases red <;> cases hv

/-! ## Supported configurations -/

/-- **C72, the path decides.** For every path, either the answer is the same for all methods and one of `NotFound`, an error and a panic;
or there is a declared block with resources whose route the path fits, and for every method the answer is the match of the first
of its resources with this very verb, or `NotAllowed` if there is none. -/
theorem C72_path (h : Supported r body) (path : Bytes) :
    (∃ o : Outcome W, (o = .notFound ∨ o = .panic ∨ ∃ x e, o = .err x e) ∧ ∀ m, callMatchRoute W body path m = o) ∨
    ∃ segs above node caps parts, HasRoute r segs above node ∧ node.resources ≠ [] ∧ Fits W segs caps parts ∧
      Spells parts (stripSlash path) ∧ ∀ m,
        (∀ before res after, node.resources = before ++ res :: after → m = verbBytes res.method →
          (∀ o ∈ before, o.method ≠ res.method) →
          (callMatchRoute W body path m).isMatch res.isRedirect (matchOf res caps (above ++ node.queryParameters))) ∧
        ((∀ res ∈ node.resources, m ≠ verbBytes res.method) → callMatchRoute W body path m = .notAllowed) := by
  simp only [call_eq h]
  rcases route_classified W r [] [] (stripSlash path) with hk | hk | hk | hk
  · obtain ⟨segs, above, node, caps, parts, h1, h2, h3, h4, h5⟩ := hk
    refine .inr ⟨segs, above, node, caps, parts, h1.hasRoute, h2, h3, h4, fun m => ⟨?_, ?_⟩⟩
    · rintro before res after hn rfl hb
      rw [h5]
      exact answer_first hn hb (above ++ node.queryParameters) caps
    · intro hm
      rw [h5, answer_notAllowed]
      exact fun res hres => (hm res hres).symm
  · exact .inl ⟨_, .inl rfl, hk⟩
  · obtain ⟨_, _, _, _, _, _, _, _, _, _, _, _, _, _, h6⟩ := hk
    exact .inl ⟨_, .inr (.inr ⟨_, _, rfl⟩), h6⟩
  · exact .inl ⟨_, .inr (.inl rfl), hk.1⟩

/-- **C72, the values.** Matches of one path for two methods have the same parameters with the same values. -/
theorem C72_values (h : Supported r body) (path m m' : Bytes) {red red' : Bool} {v v' : RouteVal W}
    (h1 : (callMatchRoute W body path m).isMatch red v) (h2 : (callMatchRoute W body path m').isMatch red' v') :
    v.params = v'.params := by
  rw [call_eq h] at h1 h2
  rcases route_classified W r [] [] (stripSlash path) with hk | hk | hk | hk
  · obtain ⟨segs, above, node, caps, parts, _, _, _, _, h5⟩ := hk
    rw [h5] at h1 h2
    obtain ⟨_, _, _, e⟩ := answer_isMatch h1
    obtain ⟨_, _, _, e'⟩ := answer_isMatch h2
    rw [e, e']
  · rw [show route W m r [] [] (stripSlash path) = _ from hk m] at h1; cases red <;> cases h1
  · obtain ⟨_, _, _, _, _, _, _, _, _, _, _, _, _, _, h6⟩ := hk
    rw [show route W m r [] [] (stripSlash path) = _ from h6 m] at h1; cases red <;> cases h1
  · rw [show route W m r [] [] (stripSlash path) = _ from hk.1 m] at h1; cases red <;> cases h1

/-- **C72, exactly these verbs.** A match is only given to `GET`, `POST`, `PUT` and `DELETE` in capital letters: `HEAD`, `OPTIONS`,
`PATCH` and `get` are never answered with one.  In a block that has resources they are answered with `NotAllowed`, also where
`GET` is a match. -/
theorem C72_verbs (h : Supported r body) (path m : Bytes) (hm : ∀ v : Method, m ≠ verbBytes v) :
    (∀ red v, ¬ (callMatchRoute W body path m).isMatch red v) ∧
    (callMatchRoute W body path m = .notAllowed ↔ ∃ (verb : Method) (red : Bool) (v : RouteVal W), (callMatchRoute W body path (verbBytes verb)).isMatch red v) := by
  have h1 := C72_program (W := W) body path (m := m) (m' := m) hm
  refine ⟨h1.2.2, fun ha => ?_, ?_⟩
  · obtain ⟨segs, above, node, caps, parts, hr, hn, _, _, _, hv⟩ := (C03_not_allowed h path m).2 ha
    obtain ⟨res, hres⟩ := List.exists_mem_of_ne_nil _ hn
    exact ⟨res.method, hv res hres⟩
  · rintro ⟨verb, red, v, hv⟩
    exact (C03_not_allowed h path m).1.2 ⟨⟨_, red, v, hv⟩, fun ⟨red, v, hv⟩ => h1.2.2 red v hv⟩

/-! ## Cases -/

/-- The people application: the verbs of `/people`, others, and one in small letters; paths whose answer does not depend on the method. -/
example : Demo.ask Demo.people c!"/people" c!"GET" = .route [c!"people"] c!"List" [] [c!"lang"] ∧
    Demo.ask Demo.people c!"/people" c!"POST" = .route [c!"people"] c!"Create" [] [c!"lang"] ∧
    Demo.ask Demo.people c!"/people" c!"get" = .notAllowed ∧ Demo.ask Demo.people c!"/people" c!"HEAD" = .notAllowed ∧
    Demo.ask Demo.people c!"/people" c!"GET " = .notAllowed ∧ Demo.ask Demo.people c!"/people" c!"" = .notAllowed ∧
    Demo.ask Demo.people c!"/people/x" c!"" = .err c!"id" c!"invalid digit" ∧
    Demo.ask Demo.people c!"/people/x" c!"DELETE" = .err c!"id" c!"invalid digit" ∧
    Demo.ask Demo.people c!"/nobody" c!"HEAD" = .notFound := by decide +kernel

/-- The methods in these cases are none of the verbs. -/
example : ∀ m ∈ [bytesOf c!"get", bytesOf c!"HEAD", bytesOf c!"GET ", bytesOf c!""], ∀ v : Method, m ≠ verbBytes v := by
  intro m hm v
  cases v <;> revert m <;> decide +kernel

end Wayfinder
