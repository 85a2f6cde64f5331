import Verif.Proofs.Desc
/-!
# Executing the statement forms the generator emits
-/

namespace Wayfinder

/-- The variables of the generated function that are there from the beginning. -/
def ownNames : List Str := [c!"i", c!"len", c!"path", c!"method"]

/-- The generated variables are not shadowed and every captured parameter is bound to its value. -/
structure EnvOk {W : World} (caps : Caps W) (env : List (Str × Val W)) : Prop where
  i : lookupVar c!"i" env = none
  len : lookupVar c!"len" env = none
  path : lookupVar c!"path" env = none
  method : lookupVar c!"method" env = none
  vals : ∀ pv ∈ caps, lookupVar pv.1.name env = some (.user pv.2)

variable {W : World}

theorem EnvOk.start {caps : Caps W} {env : List (Str × Val W)} (h : EnvOk caps env)
    (hne : ∀ pv ∈ caps, pv.1.name ≠ c!"start") (v : Val W) :
    EnvOk caps ((c!"start", v) :: env) where
  i := by simp [lookupVar, h.i]
  len := by simp [lookupVar, h.len]
  path := by simp [lookupVar, h.path]
  method := by simp [lookupVar, h.method]
  vals pv hpv := by
    have : c!"start" ≠ pv.1.name := fun he => hne pv hpv he.symm
    simp [lookupVar, this, h.vals pv hpv]

theorem EnvOk.text {caps : Caps W} {env : List (Str × Val W)} (h : EnvOk caps env)
    (hne : ∀ pv ∈ caps, pv.1.name ≠ c!"text") (v : Val W) :
    EnvOk caps ((c!"text", v) :: env) where
  i := by simp [lookupVar, h.i]
  len := by simp [lookupVar, h.len]
  path := by simp [lookupVar, h.path]
  method := by simp [lookupVar, h.method]
  vals pv hpv := by
    have : c!"text" ≠ pv.1.name := fun he => hne pv hpv he.symm
    simp [lookupVar, this, h.vals pv hpv]

theorem EnvOk.param {caps : Caps W} {env : List (Str × Val W)} (h : EnvOk caps env) {p : Param}
    (hp : p.name ∉ ownNames) (hnew : ∀ pv ∈ caps, pv.1.name ≠ p.name) (v : W.V) :
    EnvOk (caps ++ [(p, v)]) ((p.name, .user v) :: env) := by
  simp only [ownNames, List.mem_cons, List.not_mem_nil, or_false, not_or] at hp
  obtain ⟨h1, h2, h3, h4⟩ := hp
  refine ⟨?_, ?_, ?_, ?_, ?_⟩
  · simp [lookupVar, h1, h.i]
  · simp [lookupVar, h2, h.len]
  · simp [lookupVar, h3, h.path]
  · simp [lookupVar, h4, h.method]
  · intro pv hpv
    rcases List.mem_append.1 hpv with hpv | hpv
    · have hne : p.name ≠ pv.1.name := fun he => hnew pv hpv he.symm
      simp [lookupVar, hne, h.vals pv hpv]
    · simp only [List.mem_cons, List.not_mem_nil, or_false] at hpv
      subst hpv
      simp [lookupVar]

/-! ## Struct literals -/

theorem captureFields_caps {caps : Caps W} {env : List (Str × Val W)}
    (h : ∀ pv ∈ caps, lookupVar pv.1.name env = some (.user pv.2)) :
    captureFields env (caps.map Prod.fst) = some (caps.map fun pv => (pv.1.name, .user pv.2)) := by
  induction caps with
  | nil => simp [captureFields]
  | cons pv caps ih =>
    have h1 := h pv (by simp)
    have h2 := ih (fun pv' hpv' => h pv' (by simp [hpv']))
    simp [captureFields, h1, h2]

theorem execMethods_eq {caps : Caps W} {s : State W} (m : Bytes) (v : FlattenedRoute)
    (hd : dynamics v.path = caps.map Prod.fst) (henv : EnvOk caps s.env) :
    execMethods m s (methodArms v) = answer v.resources v.queryParameters caps m := by
  obtain ⟨pth, rs, qs⟩ := v
  simp only at hd
  induction rs with
  | nil => simp [methodArms, execMethods, answer]
  | cons r rs ih =>
    simp only [methodArms, List.map_cons, execMethods]
    have hcap := captureFields_caps henv.vals
    rw [← hd] at hcap
    by_cases hm : m = r.method.display.map asciiByte
    · simp only [hm, if_true, hcap]
      simp [answer, List.find?, Method.bytes, bytesOf]
    · rw [if_neg hm]
      have hm' : ¬ r.method.bytes = m := fun h => hm h.symm
      have : answer (r :: rs) qs caps m = answer rs qs caps m := by
        simp [answer, List.find?, hm']
      rw [this, ← ih]
      rfl

/-! ## Statement forms -/

variable {path m : Bytes} {caps : Caps W} {s : State W}

theorem readI_eq (h : EnvOk caps s.env) : s.readI = some s.i := by simp [State.readI, h.i]

theorem readLen_eq (h : EnvOk caps s.env) : s.readLen path = some path.length := by
  simp [State.readLen, h.len]

theorem exec_blank (rest : List Stmt) : execBlock path m (.blank :: rest) s = execBlock path m rest s := by
  simp [execBlock, Stmt.exec]

theorem exec_retNotFound (rest : List Stmt) :
    execBlock path m (.retNotFound :: rest) s = .ret (.notFound : Outcome W) := by
  simp [execBlock, Stmt.exec]

theorem exec_letStart (h : EnvOk caps s.env) (rest : List Stmt) :
    execBlock path m (.letStart :: rest) s =
      execBlock path m rest { s with env := (c!"start", .usize s.i) :: s.env } := by
  simp [execBlock, Stmt.exec, readI_eq h]

theorem exec_addI (h : EnvOk caps s.env) (n : Nat) (rest : List Stmt) :
    execBlock path m (.addI n :: rest) s = execBlock path m rest { s with i := s.i + n } := by
  simp [execBlock, Stmt.exec, h.i]

/-- `if i == len { return Ok(Match::NotFound); }` -/
theorem exec_ifEnd (h : EnvOk caps s.env) (rest : List Stmt) :
    execBlock path m (.ifThen .iEqLen [.retNotFound] :: rest) s =
      if s.i = path.length then .ret .notFound else execBlock path m rest s := by
  simp only [execBlock, Stmt.exec, Cond.eval, readI_eq h, readLen_eq h]
  by_cases hi : s.i = path.length
  · simp [hi]
  · have : (s.i == path.length) = false := by simpa using hi
    simp [hi, this]

/-- The methods of a route. -/
theorem exec_writeMethods (h : EnvOk caps s.env) (v : FlattenedRoute)
    (hd : dynamics v.path = caps.map Prod.fst) (rest : List Stmt) :
    execBlock path m (writeMethods v ++ rest) s =
      if s.i = path.length then .ret (answer v.resources v.queryParameters caps m)
      else execBlock path m rest s := by
  simp only [writeMethods, List.cons_append, List.nil_append, execBlock, Stmt.exec, Cond.eval,
    readI_eq h, readLen_eq h]
  by_cases hi : s.i = path.length
  · simp [hi, State.methodOk, h.method, execMethods_eq m v hd h]
  · have : (s.i == path.length) = false := by simpa using hi
    simp [hi, this]

/-- `match &path[i..i+n] { b"pat" => { i += n; }, _ => return Ok(Match::NotFound), }` -/
theorem exec_matchLit (h : EnvOk caps s.env) {n : Nat} (hn : s.i + n ≤ path.length) (pat : Str)
    (rest : List Stmt) :
    execBlock path m (.matchPath n [.bytes pat [.addI n], .wildNotFound] :: rest) s =
      if (path.drop s.i).take n = bytesOf pat then execBlock path m rest { s with i := s.i + n }
      else .ret .notFound := by
  simp only [execBlock, Stmt.exec, State.pathOk, h.path, readI_eq h, Option.isNone_none, hn, if_true,
    execArms, Arm.exec, h.i, bytesOf]
  by_cases hp : (path.drop s.i).take n = pat.map asciiByte
  · simp [hp]
  · simp [hp]

/-- The length test before a literal match. -/
theorem exec_lenTest (h : EnvOk caps s.env) {n : Nat} (hn : 0 < n) (hi : s.i ≤ path.length)
    (rest : List Stmt) :
    execBlock path m (.ifThen (if n = 1 then .iEqLen else .iAddGtLen n) [.retNotFound] :: rest) s =
      if path.length < s.i + n then .ret .notFound else execBlock path m rest s := by
  by_cases h1 : n = 1
  · subst h1
    simp only [if_true]
    rw [exec_ifEnd h]
    by_cases he : s.i = path.length
    · rw [if_pos he, if_pos (by omega)]
    · rw [if_neg he, if_neg (by omega)]
  · simp only [h1, if_false, execBlock, Stmt.exec, Cond.eval, readI_eq h, readLen_eq h]
    by_cases he : path.length < s.i + n
    · simp [he]
    · simp [he]

/-- `while i < len && &path[i..i+1] != b"/" { i += 1; }` -/
theorem scan_eq : ∀ (bs : Bytes) (i : Nat),
    scan (i + bs.length) bs i = some (i + (bs.takeWhile (· ≠ slash)).length)
  | [], i => by simp [scan]
  | b :: bs, i => by
    simp only [scan, List.length_cons]
    rw [if_pos (by omega)]
    by_cases hb : b = slash
    · subst hb; simp
    · have : asciiByte '/' = slash := rfl
      rw [this, if_neg hb]
      have ih := scan_eq bs (i + 1)
      have he : i + 1 + bs.length = i + (bs.length + 1) := by omega
      rw [he] at ih
      rw [ih]
      have ht : (List.takeWhile (fun x => decide (x ≠ slash)) (b :: bs)) =
          b :: bs.takeWhile (fun x => decide (x ≠ slash)) := by simp [List.takeWhile, hb]
      rw [ht]
      simp; omega

theorem length_takeWhile_add_dropWhile {α : Type} (f : α → Bool) (l : List α) :
    (l.takeWhile f).length + (l.dropWhile f).length = l.length := by
  rw [← List.length_append, List.takeWhile_append_dropWhile]

/-- The statements that capture a parameter. -/
theorem exec_dynamicHead (h : EnvOk caps s.env) (hi : s.i ≤ path.length)
    (hstart : lookupVar c!"start" s.env = some (.usize s.i)) {p : Param} {b : List Stmt}
    (ht : inferType p.name b = some p.typ) (rest : List Stmt) :
    execBlock path m (dynamicHead p.name b ++ rest) s =
      match fromUtf8 ((path.drop s.i).takeWhile (· ≠ slash)) with
      | none => .ret .panic
      | some text =>
        match W.parse p.typ text with
        | .error e => .ret (.err p.name e)
        | .ok v => execBlock path m rest
            { i := s.i + ((path.drop s.i).takeWhile (· ≠ slash)).length,
              env := (p.name, .user v) :: (c!"text", .str text) :: s.env } := by
  have hscan : scan path.length (path.drop s.i) s.i =
      some (s.i + ((path.drop s.i).takeWhile (· ≠ slash)).length) := by
    have := scan_eq (path.drop s.i) s.i
    rwa [List.length_drop, Nat.add_sub_cancel' hi] at this
  have hlen := length_takeWhile_add_dropWhile (· ≠ slash) (path.drop s.i)
  rw [List.length_drop] at hlen
  have htake : (path.drop s.i).take ((path.drop s.i).takeWhile (· ≠ slash)).length =
      (path.drop s.i).takeWhile (· ≠ slash) := by
    conv => lhs; rhs; rw [← List.takeWhile_append_dropWhile (p := (· ≠ slash)) (l := path.drop s.i)]
    simp only [List.take_left']
  simp only [dynamicHead, List.cons_append, List.nil_append, exec_blank]
  generalize hseg : (path.drop s.i).takeWhile (· ≠ slash) = seg at *
  have hle : s.i + seg.length ≤ path.length := by omega
  simp only [execBlock, Stmt.exec, State.pathOk, h.path, Option.isNone_none, h.i, readLen_eq h, hscan,
    State.readI, hstart, Option.bind_some, Val.asUsize]
  rw [if_pos ⟨by omega, hle⟩]
  rw [show s.i + seg.length - s.i = seg.length by omega, htake]
  cases fromUtf8 seg with
  | none => rfl
  | some text =>
    simp only [lookupVar, if_true, ht]
    cases W.parse p.typ text with
    | error e => rfl
    | ok v => rfl

end Wayfinder
