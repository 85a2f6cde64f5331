import Verif.Proofs.Grammar
import Verif.Spec.Pieces
/-!
# C65: the parsers for the pieces of a route file
-/

namespace Wayfinder

variable (cfg : ParseCfg)

theorem wordEnds_iff {rest : Str} : WordEnds cfg rest ↔ NotWord cfg rest := by
  constructor
  · intro h c hc
    have := h c hc
    rw [← wordChar_iff] at this
    simpa using this
  · intro h c hc hw
    rw [← wordChar_iff, h c hc] at hw
    cases hw

theorem ends_iff {level : Nat} {rest : Str} : PieceEnds level rest ↔ Dedent level rest := by
  have key : ∀ r : Str, (∀ c, r.head? = some c → c ∉ [' ', '\t', '\r', '\n', ':']) ↔ Plain r := by
    intro r
    refine forall_congr' fun c => imp_congr_right fun _ => ?_
    rw [← Bool.not_eq_true, isWs_iff]
    simp only [List.mem_cons, List.not_mem_nil, or_false, not_or, ne_eq, and_assoc]
  constructor
  · rintro ⟨n, r, h1, h2, h3⟩
    exact ⟨n, r, h2, h1, (key r).1 h3⟩
  · rintro ⟨n, r, h2, h1, h3⟩
    exact ⟨n, r, h1, h2, (key r).2 h3⟩

theorem ident_end {i rest s : Str} (h : pIdent cfg i = .ok rest s) : NotWord cfg rest := by
  unfold pIdent pTakeWhile1 at h
  split at h
  · cases h
  · injection h with h1 h2
    intro c hc
    rw [← h1] at hc
    have := List.head?_dropWhile_not (isIdentifierChar cfg) i
    rw [hc] at this
    simpa using this

/-- **C65, parameters.** `parse::param` reads a name, a colon with any blanks around it, and a type, up to the end of the word. -/
theorem C65_param (i rest : Str) (p : Param) : pParam cfg i = .ok rest p ↔
    ∃ b c, Blanks b ∧ Blanks c ∧ Word cfg p.name ∧ Word cfg p.typ ∧ WordEnds cfg rest ∧
      i = p.name ++ b ++ c!":" ++ c ++ p.typ ++ rest := by
  constructor
  · intro h
    obtain ⟨r1, name, h1, h⟩ := bind_ok h
    obtain ⟨r2, _, h2, h⟩ := bind_ok h
    obtain ⟨r3, typ, h3, h⟩ := bind_ok h
    obtain ⟨rfl, rfl⟩ := pure_ok h
    have he := ident_end cfg h3
    obtain ⟨rfl, hn⟩ := ident_inv cfg h1
    obtain ⟨rfl, ht⟩ := ident_inv cfg h3
    obtain ⟨b, c, r4, r5, hb, hc, rfl, h4, rfl⟩ := ws_inv h2
    obtain rfl := tag_inv (returnError_inv h4)
    exact ⟨b, c, hb, hc, hn, ht, (wordEnds_iff cfg).2 he, by simp⟩
  · rintro ⟨b, c, hb, hc, hn, ht, he, rfl⟩
    have hcolon : NotWord cfg (':' :: (c ++ (p.typ ++ rest))) := notWord_cons cfg (nonWord_notWord cfg (by decide) (by decide))
    have e : p.name ++ b ++ c!":" ++ c ++ p.typ ++ rest = p.name ++ (b ++ (':' :: (c ++ (p.typ ++ rest)))) := by simp
    unfold pParam pBind
    rw [e, ident_ok cfg hn (blanks_notWord cfg hb hcolon)]
    have h2 : pWs pColon (b ++ (':' :: (c ++ (p.typ ++ rest)))) = .ok (p.typ ++ rest) c!":" :=
      ws_ok hb (noWs_cons rfl) (p := pColon) (r := c ++ (p.typ ++ rest))
        (by simp [pColon, pReturnError, pTag]) hc rfl (ht.plain cfg).noWs
    simp only [h2]
    rw [ident_ok cfg ht ((wordEnds_iff cfg).1 he)]
    rfl

/-- **C65, path segments.** `parse::path_segment` reads the indentation and a word, up to its end, or a parameter in braces. -/
theorem C65_segment (level : Nat) (i rest : Str) (seg : PathSegment) : pPathSegment cfg level i = .ok rest seg ↔
    ∃ s, SegmentText cfg seg s ∧ i = spaces level ++ s ++ rest ∧ ∀ w, seg = .static w → WordEnds cfg rest := by
  constructor
  · intro h
    obtain ⟨s, hs, rfl⟩ := segment_inv cfg h
    refine ⟨s, hs, rfl, fun w hw => ?_⟩
    subst hw
    obtain ⟨r, l, h1, h2⟩ := preceded_inv h
    obtain ⟨p, hp, h⟩ := alt_ok (returning_ok h2)
    simp only [List.mem_cons, List.not_mem_nil, or_false] at hp
    rcases hp with rfl | rfl
    · obtain ⟨a, h3, h4⟩ := map_ok h
      cases h4
    · obtain ⟨a, h3, h4⟩ := map_ok h
      exact (wordEnds_iff cfg).2 (ident_end cfg h3)
  · rintro ⟨s, hs, rfl, he⟩
    cases hs with
    | static hw =>
      rw [List.append_assoc]
      exact segment_static cfg hw level ((wordEnds_iff cfg).1 (he _ rfl))
    | @dynamic p t ht =>
      unfold pPathSegment
      rw [List.append_assoc, preceded_ok (indent_ok level _)]
      have h := bracketed_ok cfg (o := '{') (c := '}') (k := .custom c!"Expected a \"}\"") (.inl rfl) ht rest
      have e : c!"{" ++ t ++ c!"}" ++ rest = '{' :: (t ++ '}' :: rest) := by simp
      have h : pBraced cfg ('{' :: (t ++ '}' :: rest)) = .ok rest p := h
      rw [e, returning_eq (by simp [h])]
      unfold pAlt pMap pBind
      rw [h]
      rfl

/-- **C65, query parameters.** `parse::query_parameter` reads the indentation and a parameter in brackets. -/
theorem C65_query (level : Nat) (i rest : Str) (p : Param) : pQueryParameter cfg level i = .ok rest p ↔
    ∃ t, ParamText cfg p t ∧ i = spaces level ++ c!"[" ++ t ++ c!"]" ++ rest := by
  constructor
  · exact query_inv cfg
  · rintro ⟨t, ht, rfl⟩
    exact queryText_ok cfg ht rest

/-- **C65, resources.** In front of the end of its query parameters, a text is read by `parse::resource` if and only if it is one of the
resource. -/
theorem C65_resource {level : Nat} {rest : Str} (he : PieceEnds (level + 1) rest) (t : Str) (x : Resource) :
    pResource cfg level (t ++ rest) = .ok rest x ↔ ResourceText cfg level x t := by
  constructor
  · intro h
    obtain ⟨t', ht, e⟩ := resource_inv cfg h
    rw [List.append_cancel_right e]
    exact ht
  · exact fun h => resourceText_ok cfg h (ends_iff.1 he)

/-- **C65, blocks.** In front of the end of a block, a text is read by `parse::routes` if and only if it is one of the block. -/
theorem C65_routes {level : Nat} {rest : Str} (he : PieceEnds level rest) (t : Str) (r : Routes) :
    pRoutes cfg level (t ++ rest) = .ok rest r ↔ BlockText cfg level r t := by
  constructor
  · intro h
    obtain ⟨t', ht, e⟩ := routes_inv cfg h
    rw [List.append_cancel_right e]
    exact ht
  · intro h
    rw [routes_eq]
    exact block_accepted cfg h (ends_iff.1 he)

/-- **C65, children.** In front of the end of the block of a child, a text is read by `parse::nested_routes` if and only if it is one of
the child. -/
theorem C65_nested {level : Nat} {rest : Str} (he : PieceEnds (level + 1) rest) (t : Str) (n : NestedRoutes) :
    nestedRoutes cfg level (t ++ rest) = .ok rest n ↔ ChildTexts cfg level [n] t := by
  constructor
  · intro h
    obtain ⟨t', ht, e⟩ := nested_inv cfg _ level h .nil
    rw [List.append_nil] at ht
    rw [List.append_cancel_right e]
    exact ht
  · intro h
    cases h with
    | @cons _ seg r _ s e t u hs he' hne ht hu =>
      cases hu
      have e1 : spaces level ++ s ++ e ++ t ++ [] ++ rest = spaces level ++ (s ++ (e ++ (t ++ rest))) := by simp
      have hw : NotWord cfg (e ++ (t ++ rest)) := by
        cases he' with
        | nil => exact absurd rfl hne
        | lf _ => exact notWord_cons cfg (nonWord_notWord cfg (by decide) (by decide))
        | crlf _ => exact notWord_cons cfg (nonWord_notWord cfg (by decide) (by decide))
      rw [e1, nestedRoutes_eq]
      obtain ⟨l, hl⟩ := eols1_ok he' hne (blockText_noEol cfg ht (Nat.succ_pos _) rest)
      unfold pBind
      rw [segmentText_ok cfg hs level hw]
      simp only [hl, pReturnError, block_accepted cfg ht (ends_iff.1 he)]
      rfl

/-! ## Printed pieces, moved to the right -/

/-- Moving `a` to the right gives `b`, and blanks for the line behind it. -/
def Moves (l : Nat) (a b : Str) : Prop := movedText l a = b ++ spaces l

variable {cfg}

theorem Moves.nil (l : Nat) : Moves l [] [] := by simp [Moves, movedText]

theorem Moves.append {l : Nat} {a b c d : Str} (h : Moves l a b) (h' : Moves l c d) : Moves l (a ++ c) (b ++ d) := by
  unfold Moves movedText at *
  rw [List.flatMap_append, ← List.append_assoc, h, List.append_assoc, h', List.append_assoc]

theorem flatMap_line (l : Nat) : ∀ {x : Str}, '\n' ∉ x → (x.flatMap fun c => if c = '\n' then '\n' :: spaces l else [c]) = x
  | [], _ => rfl
  | c :: x, h => by
    rw [List.flatMap_cons, flatMap_line l fun hm => h (List.mem_cons_of_mem _ hm), if_neg (by rintro rfl; simp at h)]
    rfl

theorem Moves.line {l : Nat} {x : Str} (h : '\n' ∉ x) : Moves l (x ++ c!"\n") (spaces l ++ x ++ c!"\n") := by
  unfold Moves movedText
  rw [List.flatMap_append, flatMap_line l h]
  simp

theorem spaces_add (k l : Nat) : spaces (k + l) = spaces l ++ spaces k := by
  simp [spaces, Nat.mul_add, List.replicate_append_replicate, Nat.add_comm]

theorem newline_spaces (k : Nat) : '\n' ∉ spaces k := by simp [spaces, List.mem_replicate]

theorem Word.newline {w : Str} (h : Word cfg w) : '\n' ∉ w := fun hm => by
  have := (wordChar_iff cfg _).2 (h.2 _ hm)
  rw [nonWord_notWord cfg (by decide) (by decide)] at this
  cases this

theorem display_newline {p : Param} (h : p.Written cfg) : '\n' ∉ p.display := by
  have h1 := Word.newline h.1
  have h2 := Word.newline h.2
  simp [Param.display, h1, h2]

theorem display_text {p : Param} (h : p.Written cfg) : ParamText cfg p p.display := by
  have := ParamText.mk (cfg := cfg) (a := []) (b := []) (c := [' ']) (d := []) h.1 h.2 (by simp [Blanks]) (by simp [Blanks]) (by simp [Blanks])
    (by simp [Blanks])
  simpa [Param.display] using this

theorem Eols.one : Eols c!"\n" := .lf .nil

theorem params_moved {k l : Nat} : ∀ {qs : List Param}, (∀ q ∈ qs, q.Written cfg) → (qs ≠ [] → k ≤ 7) →
    ∃ u, QueryLines cfg (k + l) qs u ∧ Moves l (stringifyParams qs k) u
  | [], _, _ => ⟨[], .nil, .nil l⟩
  | q :: qs, hq, hk => by
    obtain ⟨u, hu, hm⟩ := params_moved (l := l) (k := k) (fun x hx => hq x (List.mem_cons_of_mem _ hx)) (fun _ => hk (by simp))
    have h1 := hq q (List.mem_cons_self ..)
    refine ⟨_, .cons (display_text h1) .one (by simp) hu, ?_⟩
    have h2 := (Moves.line (l := l) (x := spaces k ++ c!"[" ++ q.display ++ c!"]")
      (by simp [newline_spaces, display_newline h1])).append hm
    simpa [stringifyParams, spaces_add, indent_eq (hk (by simp))] using h2

theorem target_text {ms : List Str} {x : Str} (hx : Word cfg x) : (∀ m ∈ ms, Word cfg m) →
    TargetText cfg ms x ((ms.map fun m => m ++ c!"::").flatten ++ x) := by
  induction ms with
  | nil => exact fun _ => .name hx
  | cons m ms ih =>
    intro h
    have := TargetText.module (cfg := cfg) (a := []) (b := []) (h m (List.mem_cons_self ..)) (by simp [Blanks]) (by simp [Blanks])
      (ih fun m' hm => h m' (List.mem_cons_of_mem _ hm))
    simpa using this

theorem target_newline {ms : List Str} (h : ∀ m ∈ ms, Word cfg m) : '\n' ∉ (ms.map fun m => m ++ c!"::").flatten := by
  intro hm
  obtain ⟨t, ht, hm⟩ := List.mem_flatten.1 hm
  obtain ⟨m, hm', rfl⟩ := List.mem_map.1 ht
  have := Word.newline (h m hm')
  simp [this] at hm

theorem resource_moved {k l : Nat} {x : Resource} (hx : x.Written cfg) (hk : k ≤ 7) (hq : x.queryParameters ≠ [] → k + 1 ≤ 7) :
    ∃ t, ResourceText cfg (k + l) x t ∧ Moves l (x.stringify k) t := by
  obtain ⟨h1, h2, h3⟩ := hx
  obtain ⟨u, hu, hm⟩ := params_moved (l := l) (k := k + 1) h3 hq
  have hu : QueryLines cfg (k + l + 1) x.queryParameters u := by
    rw [show k + l + 1 = k + 1 + l by omega]; exact hu
  have hstr : x.stringify k = (spaces k ++ x.method.display ++ (if x.isRedirect then c!" ->" else c!"") ++ c!" " ++
      (x.modules.map fun m => m ++ c!"::").flatten ++ x.name) ++ c!"\n" ++ stringifyParams x.queryParameters (k + 1) := by
    have := params_shift (k + 1) x.queryParameters
    simp only [Resource.stringify, indent_eq hk, List.append_assoc] at this ⊢
    rw [this]
    simp
  have hv : VerbText x.method x.method.display := (verbText_iff _ _).2 rfl
  have hvn : '\n' ∉ x.method.display := by cases x.method <;> decide
  have htn := target_newline h2
  have hnn := Word.newline h1
  rw [hstr]
  cases hr : x.isRedirect with
  | false =>
    refine ⟨_, .mk (a := []) hv (hr ▸ .none) (target_text h1 h2) .one (by simp) hu, ?_⟩
    have := (Moves.line (l := l) (x := spaces k ++ x.method.display ++ c!" " ++ (x.modules.map fun m => m ++ c!"::").flatten ++ x.name)
      (by simp [newline_spaces, hvn, htn, hnn])).append hm
    simpa [spaces_add] using this
  | true =>
    refine ⟨_, .mk (a := c!"-> ") hv (hr ▸ .arrow (a := []) (b := [' ']) (by simp [Blanks]) (by simp [Blanks])) (target_text h1 h2) .one
      (by simp) hu, ?_⟩
    have := (Moves.line (l := l) (x := spaces k ++ x.method.display ++ c!" -> " ++ (x.modules.map fun m => m ++ c!"::").flatten ++ x.name)
      (by simp [newline_spaces, hvn, htn, hnn])).append hm
    simpa [spaces_add] using this

theorem resources_moved {k l : Nat} (hk : k ≤ 7) : ∀ {xs : List Resource}, (∀ x ∈ xs, x.Written cfg) →
    (∀ x ∈ xs, x.queryParameters ≠ [] → k + 1 ≤ 7) → ∃ t, ResourceTexts cfg (k + l) xs t ∧ Moves l (stringifyResources xs k) t
  | [], _, _ => ⟨[], .nil, .nil l⟩
  | x :: xs, hx, hq => by
    obtain ⟨t, ht, hm⟩ := resource_moved (l := l) (hx x (List.mem_cons_self ..)) hk (hq x (List.mem_cons_self ..))
    obtain ⟨u, hu, hm'⟩ := resources_moved (l := l) hk (fun y hy => hx y (List.mem_cons_of_mem _ hy)) (fun y hy => hq y (List.mem_cons_of_mem _ hy))
    exact ⟨_, .cons ht hu, hm.append hm'⟩

theorem segment_text {seg : PathSegment} (h : seg.Written cfg) : SegmentText cfg seg seg.stringify ∧ '\n' ∉ seg.stringify := by
  cases seg with
  | static s => exact ⟨.static h, Word.newline h⟩
  | dynamic p => exact ⟨.dynamic (display_text h), by simp [PathSegment.stringify, display_newline h]⟩

mutual
theorem block_moved (l : Nat) : ∀ (r : Routes) (k : Nat), r.Written cfg → Deep k r →
    ∃ t, BlockText cfg (k + l) r t ∧ Moves l (r.stringify k) t
  | .mk rs ns qs, k, hw, hd => by
    obtain ⟨hne, hrs, hqs, hns⟩ := (written_mk cfg).1 hw
    obtain ⟨t, ht, h1⟩ := params_moved (l := l) hqs fun _ => hd.level
    obtain ⟨u, hu, h2⟩ := resources_moved (l := l) hd.level hrs fun x hx hq => by
      have := (hd _ _ _ (.here _)).2 x hx hq
      simpa using this
    obtain ⟨v, hv, h3⟩ := children_moved l ns k hns fun n hn => ⟨hd.level, hd.child (seg := n.pathSegment) (sub := n.routes) (by cases n; exact hn)⟩
    refine ⟨_, .mk ht hu hv hne, ?_⟩
    rw [Routes.stringify]
    exact (h1.append h2).append h3
theorem children_moved (l : Nat) : ∀ (ns : List NestedRoutes) (k : Nat),
    (∀ n ∈ ns, n.pathSegment.Written cfg ∧ n.routes.Written cfg) → (∀ n ∈ ns, k ≤ 7 ∧ Deep (k + 1) n.routes) →
    ∃ t, ChildTexts cfg (k + l) ns t ∧ Moves l (stringifyNested ns k) t
  | [], _, _, _ => ⟨[], .nil, by rw [stringifyNested]; exact .nil l⟩
  | .mk seg sub :: ns, k, hw, hd => by
    obtain ⟨u, hu, h2⟩ := children_moved l ns k (fun n hn => hw n (List.mem_cons_of_mem _ hn)) (fun n hn => hd n (List.mem_cons_of_mem _ hn))
    obtain ⟨hk, hd⟩ := hd _ (List.mem_cons_self ..)
    obtain ⟨hs, hr⟩ := hw _ (List.mem_cons_self ..)
    obtain ⟨t, ht, h1⟩ := block_moved l sub (k + 1) hr hd
    obtain ⟨h3, h4⟩ := segment_text (seg := seg) hs
    have ht : BlockText cfg (k + l + 1) sub t := by
      rw [show k + l + 1 = k + 1 + l by omega]; exact ht
    refine ⟨_, .cons h3 .one (by simp) ht hu, ?_⟩
    have := ((Moves.line (l := l) (x := spaces k ++ seg.stringify) (by simp [newline_spaces, h4])).append h1).append h2
    rw [stringifyNested, NestedRoutes.stringify, indent_eq hk]
    simpa [spaces_add] using this
end

variable (cfg)

theorem ends_spaces (level k : Nat) : PieceEnds level (spaces k) := ⟨2 * k, [], by simp [spaces], .inr rfl, by simp⟩

/-- **C65, printed resources.** A printed resource, moved to the right, is read back at its new level; the blanks of the line behind it are
left. -/
theorem C65_resource_moved {x : Resource} (hx : x.Written cfg) (level : Nat) :
    pResource cfg level (movedText level (x.stringify 0)) = .ok (spaces level) x := by
  obtain ⟨t, ht, hm⟩ := resource_moved (l := level) (k := 0) hx (by omega) (fun _ => by omega)
  rw [Nat.zero_add] at ht
  rw [hm]
  exact (C65_resource cfg (ends_spaces _ _) _ _).2 ht

/-- **C65, printed blocks.** So is a printed block, if its lines could be indented. -/
theorem C65_routes_moved {r : Routes} (hr : r.Written cfg) (hd : ShallowAt 0 r) (level : Nat) :
    pRoutes cfg level (movedText level (r.stringify 0)) = .ok (spaces level) r := by
  obtain ⟨t, ht, hm⟩ := block_moved level r 0 hr hd
  rw [Nat.zero_add] at ht
  rw [hm]
  exact (C65_routes cfg (ends_spaces _ _) _ _).2 ht

/-- **C65, printed children.** So is a printed child. -/
theorem C65_nested_moved {n : NestedRoutes} (hs : n.pathSegment.Written cfg) (hr : n.routes.Written cfg) (hd : ShallowAt 1 n.routes)
    (level : Nat) : nestedRoutes cfg level (movedText level (n.stringify 0)) = .ok (spaces level) n := by
  obtain ⟨t, ht, hm⟩ := children_moved level [n] 0 (by simpa using ⟨hs, hr⟩)
    (fun m hm => by obtain rfl := List.mem_singleton.1 hm; exact ⟨by omega, hd⟩)
  rw [Nat.zero_add] at ht
  simp only [stringifyNested, List.append_nil] at hm
  rw [hm]
  exact (C65_nested cfg (ends_spaces _ _) _ _).2 ht

/-! ## The cases of the tests -/

/-- The tests of `wayfinder-tests/src/lib.rs` are instances, with level one. -/
example : movedText 1 ((⟨.get, [c!"person"], c!"show", false, [⟨c!"id", c!"usize"⟩]⟩ : Resource).stringify 0) =
    c!"  GET person::show\n    [id: usize]\n  " := by decide

/-- A block with a parameter as its child. -/
def pieceBlock : Routes :=
  .mk [⟨.get, [c!"People"], c!"Index", false, []⟩] [.mk (.dynamic ⟨c!"id", c!"Uuid"⟩) (.mk [⟨.get, [c!"People"], c!"Show", false, []⟩] [] [])] []

theorem pieceBlock_written : pieceBlock.Written cfg := by
  have w : ∀ {s : Str}, s ≠ [] → (∀ c ∈ s, 'a' ≤ c ∧ c ≤ 'z' ∨ 'A' ≤ c ∧ c ≤ 'Z') → Word cfg s := fun h h' =>
    ⟨h, fun c hc => .inr ((h' c hc).imp_right .inl)⟩
  have hx : ∀ x : Resource, x.modules = [c!"People"] → x.queryParameters = [] → x.name = c!"Index" ∨ x.name = c!"Show" → x.Written cfg := by
    intro x h1 h2 h3
    refine ⟨?_, by rw [h1]; simpa using w (by simp) (by decide), by simp [h2]⟩
    rcases h3 with h3 | h3 <;> rw [h3] <;> exact w (by simp) (by decide)
  refine (written_mk cfg).2 ⟨.inl (by simp), by simpa using hx _ rfl rfl (.inl rfl), by simp, ?_⟩
  rw [List.forall_mem_singleton]
  exact ⟨⟨w (by simp) (by decide), w (by simp) (by decide)⟩,
    (written_mk cfg).2 ⟨.inl (by simp), by simpa using hx _ rfl rfl (.inr rfl), by simp, by simp⟩⟩

theorem pieceBlock_shallow : ShallowAt 0 pieceBlock := by
  intro segs query node h
  cases h with
  | here => exact ⟨by simp, by simp [pieceBlock]⟩
  | child hm h =>
    simp only [pieceBlock, Routes.routes_mk, List.mem_singleton, NestedRoutes.mk.injEq] at hm
    obtain ⟨rfl, rfl⟩ := hm
    cases h with
    | here => exact ⟨by simp, by simp⟩
    | child hm h => simp at hm

/-- It is read at every level. -/
example (level : Nat) : pRoutes cfg level (movedText level c!"GET People::Index\n{id: Uuid}\n  GET People::Show\n") =
    .ok (spaces level) pieceBlock := C65_routes_moved cfg (pieceBlock_written cfg) pieceBlock_shallow level

/-- A block may end where another line begins with less indentation. -/
example : PieceEnds 2 c!"  more\n" := ⟨2, c!"more\n", rfl, .inl (by omega), by decide⟩

/-- A colon does not end it: the name before would go on. -/
example : pResource cfg 0 c!"GET a\n::b\n" = .ok [] ⟨.get, [c!"a"], c!"b", false, []⟩ := by
  obtain ⟨u, a, e⟩ := cfg
  cases a <;> cases e <;> rfl

end Wayfinder
