import Verif.Props.EditRun

/-! # Inserting a program in a source text (C102) -/

namespace Lol

theorem NodeG.step_map {f : Token → Token} (hf : ∀ t, (f t).tokenType.kind = t.tokenType.kind)
    {L : List (List Token)} {node : Node} (h : NodeG L node) (A : List (List Token)) :
    ∃ t r a, L.map (List.map f) = (t :: r) :: a ∧ (∀ k ∈ partKeywords, ¬ t.Is k) ∧
      StepR ⟨t :: r, a ++ A.map (List.map f)⟩ (.ok [node.map f] (.of (A.map (List.map f)))) := by
  obtain ⟨first, tail, rest, rfl, hs, h⟩ := h.complete
  obtain ⟨n, h⟩ := h A
  obtain ⟨s', h1, h2, h3⟩ := h n (Nat.le_refl n)
  have hm := (statement_maps hf (fun hs => block_maps hf n hs) n first).exec ⟨tail, rest ++ A⟩
  rw [h1] at hm
  have hr := parseStatement_read (parseBlock_read n) n (f first) (tail.map f)
    (rest.map (List.map f) ++ A.map (List.map f))
  have e : Stmts.map f ⟨tail, rest ++ A⟩ = ⟨tail.map f, rest.map (List.map f) ++ A.map (List.map f)⟩ := by
    simp [Stmts.map]
  rw [e] at hm
  rw [hm] at hr
  refine ⟨f first, tail.map f, rest.map (List.map f), rfl, ?_, ?_⟩
  · intro k hk h
    have hsub : ∀ k ∈ partKeywords, k ∈ stopKeywords := by decide
    exact hs k (hsub k hk) ((KeepsKind.typeEq hf first (.inl ⟨k, rfl⟩)).1 h)
  · obtain ⟨cur, later⟩ := s'
    cases h2
    have : StepR _ (.ok (_ :: leftoverNodes []) (.of (later.map (List.map f)))) := .ok hr
    have e2 : Stmts.of (later.map (List.map f)) = .of (A.map (List.map f)) := by
      rw [← Stmts.map_of, ← Stmts.map_of, ← h3]
      cases later <;> rfl
    rw [e2] at this
    exact this

/-- Nodes before the rest of a block. -/
theorem NodesG.rest {f : Token → Token} (hf : ∀ t, (f t).tokenType.kind = t.tokenType.kind) {close : List Keyword}
    (hc : ∀ k ∈ close, k ∈ partKeywords) {A : List (List Token)} {r : Read Block}
    (hr : Rest close (.of (A.map (List.map f))) r) : ∀ {L : List (List Token)} {nodes : Block}, NodesG L nodes →
      Rest close (.of (L.map (List.map f) ++ A.map (List.map f))) (r.map (mapBlock f nodes ++ ·))
  | _, _, .nil => by cases r <;> simpa [mapBlock, Read.map] using hr
  | _, _, .cons (rest := rest) h1 h2 => by
    have ih := NodesG.rest hf hc hr h2
    obtain ⟨t, u, a, e1, e2, e3⟩ := h1.step_map hf (rest ++ A)
    rw [List.map_append, e1]
    refine .more ?_ ?_
    · rintro (h | ⟨_, _, h, k, hk, ht⟩)
      · cases h
      · cases h
        exact e2 k (hc k hk) ht
    · have := BlockR.of_rest e3 (by rw [List.map_append]; exact ih)
      rw [Read.map_append] at this
      simpa [mapBlock, Stmts.of] using this

theorem NodesG.readBefore {f : Token → Token} (hf : ∀ t, (f t).tokenType.kind = t.tokenType.kind)
    {L : List (List Token)} {nodes : Block} (h : NodesG L nodes) (A : List (List Token)) :
    ReadBefore (L.map (List.map f)) (A.map (List.map f)) (· = mapBlock f nodes) :=
  fun _ hc _ hr => .inl ⟨_, rfl, h.rest hf hc hr⟩

theorem NodesG.no_panic {f : Token → Token} (hf : ∀ t, (f t).tokenType.kind = t.tokenType.kind) :
    ∀ {L : List (List Token)} {nodes : Block}, NodesG L nodes → (∀ q ∈ L.map (List.map f), PlainTokens q) →
      ∀ q ∈ L.map (List.map f), ∀ p, ¬ ∀ l, StepR ⟨q, l⟩ (.panic p)
  | _, _, .nil, _, q, hq, _ => by cases hq
  | _, _, .cons h1 h2, hp, q, hq, p => by
    rw [List.map_append] at hp hq
    rcases List.mem_append.1 hq with hq | hq
    · obtain ⟨t, r, a, e1, -, e3⟩ := h1.step_map hf []
      have hone : a = [] := by
        have hp1 := hp _ (List.mem_append_left _ (by rw [e1]; exact List.mem_cons_self))
        rcases hp1.step with ⟨x, hx⟩ | ⟨p, hx⟩
        · have := e3.det (hx _)
          cases a with
          | nil => rfl
          | cons c a =>
            have h3 := (Read.ok.inj this).2
            have hc := hp c (List.mem_append_left _ (by rw [e1]; simp))
            exact absurd (congrArg Stmts.cur h3).symm hc.ne_nil
        · cases e3.det (hx _)
      subst hone
      rw [e1] at hq
      cases List.mem_singleton.1 hq
      intro h
      cases e3.det (h _)
    · exact h2.no_panic hf (fun q h => hp q (List.mem_append_right _ h)) q hq p

theorem BodyText.nodes {m : Str} {y : Block} (h : BodyText m y) :
    ∃ tm, LinesOf m tm ∧ stmt tm 0 ≠ [] ∧ parse tm = .ok y ∧ NodesG (split tm).all y := by
  obtain ⟨tm, h1, h2, h3⟩ := h.stmts
  obtain ⟨tm', h4, -, h5, -⟩ := h
  have e : tm' = tm := by
    have := h4.1.symm.trans h1.1
    cases this
    rfl
  subst e
  refine ⟨_, h1, h2, h5, ?_⟩
  generalize hL : (split tm').all = L at h3
  cases h3 with
  | nodes h3 h4 => exact .cons h3 h4
  | skip h3 => exact absurd (List.cons.inj hL).1 h2

/-- The statements of a source with and without further lines, up to positions. -/
theorem LinesOf.with_lines {a l m b : Str} {ta tl tm st : List Token} (ha : LinesOf a ta) (hl : LinesOf l tl)
    (hs : (split tl).all = [st]) (hst : st ≠ []) (hm : LinesOf m tm) (hm0 : stmt tm 0 ≠ []) {nodes : Block}
    (h : tokenizeAndParse (a ++ '\n' :: (l ++ '\n' :: b)) = .ok (.ok nodes)) :
    ∃ ts ts' P Q, tokenize (a ++ '\n' :: (l ++ '\n' :: b)) = .ok (.ok ts) ∧
      tokenize (a ++ '\n' :: (l ++ '\n' :: (m ++ '\n' :: b))) = .ok (.ok ts') ∧
      bareStmts (split ts).all = P ++ st.map Token.unplaced :: bareStmts Q ∧
      bareStmts (split ts').all = P ++ st.map Token.unplaced :: (bareStmts (split tm).all ++ bareStmts Q) := by
  have hb : ∃ tb, tokenize b = .ok (.ok tb) := by
    have e1 := C54_lines (b := l ++ '\n' :: b) ha.1 ha.2.1
    have e2 := C54_lines (b := b) hl.1 hl.2.1
    unfold tokenizeAndParse at h
    rw [e1, e2] at h
    rcases hbt : tokenize b with (e | us) | p | _
    · rw [hbt] at h; cases h
    · exact ⟨us, rfl⟩
    · rw [hbt] at h; cases h
    · rw [hbt] at h; cases h
  obtain ⟨tb, hb⟩ := hb
  obtain ⟨tx, hx, hx1, -⟩ := hm.append hb
  rw [splitGap_of_stmt hm0] at hx1
  obtain ⟨ts, h1, h2⟩ := ha.around hl hs hst hb
  obtain ⟨ts', h1', h2'⟩ := ha.around hl hs hst hx
  rw [hx1] at h2'
  exact ⟨ts, ts', _, _, h1, h1', h2, h2'⟩

/-- What the theorems below have in common, for any lines that are read as they are alone. -/
theorem insert_edit_of {a l m b : Str} {ta tm : List Token} (ha : LinesOf a ta) (hl : OneStatement l) {nodes y : Block}
    (hm1 : LinesOf m tm) (hm2 : stmt tm 0 ≠ []) (hm3 : parse tm = .ok y)
    (hm4 : ∀ Q, ReadBefore (bareStmts (split tm).all) (bareStmts Q) (· = mapBlock Token.unplaced y))
    (hm5 : (∀ q ∈ bareStmts (split tm).all, PlainTokens q) →
      ∀ q ∈ bareStmts (split tm).all, ∀ p, ¬ ∀ l, StepR ⟨q, l⟩ (.panic p))
    (h : tokenizeAndParse (a ++ '\n' :: (l ++ '\n' :: b)) = .ok (.ok nodes)) :
    ∃ nodes', tokenizeAndParse (a ++ '\n' :: (l ++ '\n' :: (m ++ '\n' :: b))) = .ok (.ok nodes') ∧
      ((mapBlock Token.unplaced nodes' = mapBlock Token.unplaced nodes ∧
        ∃ ts, tokenize (a ++ '\n' :: (l ++ '\n' :: b)) = .ok (.ok ts) ∧ [] ∈ (split ts).all) ∨
      Edited (ThenText l m) (mapBlock Token.unplaced nodes) (mapBlock Token.unplaced nodes')) := by
  obtain ⟨tl, st, hl1, hl2, hl3⟩ := hl
  obtain ⟨ts, ts', P, Q, h1, h1', h2, h2'⟩ := ha.with_lines hl1 hl2 hl3.ne_nil hm1 hm2 h
  have hf : ∀ t : Token, (Token.unplaced t).tokenType.kind = t.tokenType.kind := fun _ => rfl
  have hp := hl3.map hf
  have e : ∀ ts, mapOutcome Token.unplaced (parse ts) = parseStmts (.of (bareStmts (split ts).all)) := fun ts => by
    rw [parse_eq, ← parseStmts_map hf]
    rfl
  have a1 := e ts
  rw [parse_of_tokenizeAndParse h1 h, h2] at a1
  obtain ⟨s, h3⟩ := parseStmts_ok_iff.1 a1.symm
  obtain ⟨r, h4, h5⟩ := h3.editBy hp hp (hm4 Q) (by simp) (by simp) _ (near_of _)
  have a2 := e ts'
  rw [h2'] at a2
  have key : ∀ b s', r = .ok b s' → ∃ nodes', parse ts' = .ok nodes' ∧ mapBlock Token.unplaced nodes' = b := by
    rintro b s' rfl
    exact mapOutcome_eq_ok (a2.trans (parseStmts_ok_iff.2 ⟨_, h4⟩))
  rcases h5.ok_inv with ⟨s', rfl, h10⟩ | ⟨b', rfl, h10⟩ | ⟨p, rfl, q, hq, h10⟩
  · obtain ⟨nodes', g1, g2⟩ := key _ _ rfl
    refine ⟨nodes', tokenizeAndParse_of h1' g1, .inl ⟨g2, ts, h1, ?_⟩⟩
    have := edit_stop hp.ne_nil h3 h10
    have : [] ∈ bareStmts (split ts).all := by
      rw [h2]
      exact List.mem_append_left _ this
    obtain ⟨x, hx, he⟩ := List.mem_map.1 this
    rwa [List.map_eq_nil_iff.1 he] at hx
  · obtain ⟨nodes', g1, rfl⟩ := key _ _ rfl
    refine ⟨nodes', tokenizeAndParse_of h1' g1, .inr (h10.mono fun x x' hw => ?_)⟩
    obtain ⟨g1, rfl⟩ := hw
    cases g1.same
    refine ⟨?_, y, tokenizeAndParse_of hm1.1 hm3, rfl⟩
    cases g1 with
    | alone g5 _ =>
      obtain ⟨z, rfl, g6⟩ := step_alone hf g5
      have ho := tokenizeAndParse_of hl1.1 (g6 _ (stmt_one hl2))
      exact .alone ho ho
    | misread g => exact .misread hl1.1 hl1.1 (by rw [(stmt_one hl2).1]; exact g)
  · exfalso
    rcases hq with ⟨hq, hq'⟩ | ⟨rfl, x, hx⟩
    · exact hm5 hq' q hq p h10
    · cases (hx []).det (h10 [])

/-- What the theorems below have in common. -/
private theorem insert_edit {a l m b : Str} {ta : List Token} (ha : LinesOf a ta) (hl : OneStatement l) {nodes y : Block}
    (hm : BodyText m y) (h : tokenizeAndParse (a ++ '\n' :: (l ++ '\n' :: b)) = .ok (.ok nodes)) :
    ∃ nodes', tokenizeAndParse (a ++ '\n' :: (l ++ '\n' :: (m ++ '\n' :: b))) = .ok (.ok nodes') ∧
      ((mapBlock Token.unplaced nodes' = mapBlock Token.unplaced nodes ∧
        ∃ ts, tokenize (a ++ '\n' :: (l ++ '\n' :: b)) = .ok (.ok ts) ∧ [] ∈ (split ts).all) ∨
      Edited (ThenText l m) (mapBlock Token.unplaced nodes) (mapBlock Token.unplaced nodes')) := by
  obtain ⟨tm, hm1, hm2, hm3, hm4⟩ := hm.nodes
  have hf : ∀ t : Token, (Token.unplaced t).tokenType.kind = t.tokenType.kind := fun _ => rfl
  exact insert_edit_of ha hl hm1 hm2 hm3 (hm4.readBefore hf) (hm4.no_panic hf) h

/-! ## C102 -/

/-- **C102** A program without errors, with whole loops, functions, switches and conditionals, can be inserted in any
source that has a tree, after any statement that opens no block and ends none: the source still has a tree, and without
positions it is the same, or it is except that it has, right after the nodes of that statement, those of the program, at
any depth. -/
theorem C102_insert {a l m b : Str} {ta : List Token} (ha : LinesOf a ta) (hl : OneStatement l) {nodes y : Block}
    (hm : BodyText m y) (h : tokenizeAndParse (a ++ '\n' :: (l ++ '\n' :: b)) = .ok (.ok nodes)) :
    ∃ nodes', tokenizeAndParse (a ++ '\n' :: (l ++ '\n' :: (m ++ '\n' :: b))) = .ok (.ok nodes') ∧
      (mapBlock Token.unplaced nodes' = mapBlock Token.unplaced nodes ∨
        Edited (ThenText l m) (mapBlock Token.unplaced nodes) (mapBlock Token.unplaced nodes')) := by
  obtain ⟨nodes', h1, h2⟩ := insert_edit ha hl hm h
  exact ⟨nodes', h1, h2.imp_left And.left⟩

/-- **C102** If no statement of the source is empty, the nodes of the program are there, unless they were dropped with a
construct that is in error. -/
theorem C102_there {a l m b : Str} {ta ts : List Token} (ha : LinesOf a ta) (hl : OneStatement l) {nodes nodes' y : Block}
    (hm : BodyText m y) (h : tokenizeAndParse (a ++ '\n' :: (l ++ '\n' :: b)) = .ok (.ok nodes))
    (h' : tokenizeAndParse (a ++ '\n' :: (l ++ '\n' :: (m ++ '\n' :: b))) = .ok (.ok nodes'))
    (ht : tokenize (a ++ '\n' :: (l ++ '\n' :: b)) = .ok (.ok ts)) (hs : [] ∉ (split ts).all) :
    Edited (ThenText l m) (mapBlock Token.unplaced nodes) (mapBlock Token.unplaced nodes') := by
  obtain ⟨nodes'', h1, h2⟩ := insert_edit ha hl hm h
  rw [h'] at h1
  cases h1
  refine h2.resolve_left ?_
  rintro ⟨-, ts', h1, h2⟩
  rw [ht] at h1
  cases h1
  exact hs h2

/-- **C102** The list of the errors (without positions) stays as it is. -/
theorem C102_errors {a l m b : Str} {ta : List Token} (ha : LinesOf a ta) (hl : OneStatement l) {nodes nodes' y : Block}
    (hm : BodyText m y) (h : tokenizeAndParse (a ++ '\n' :: (l ++ '\n' :: b)) = .ok (.ok nodes))
    (h' : tokenizeAndParse (a ++ '\n' :: (l ++ '\n' :: (m ++ '\n' :: b))) = .ok (.ok nodes')) :
    (errorsBlock nodes').map (ASTError.map Token.unplaced) = (errorsBlock nodes).map (ASTError.map Token.unplaced) := by
  obtain ⟨nodes'', h1, h2⟩ := C102_insert ha hl hm h
  rw [h'] at h1
  cases h1
  obtain ⟨tm, h3, -, h4, h5, -⟩ := hm
  have hy := tokenizeAndParse_of h3.1 h4
  have hz := (errorFreeBlock_errors y).1 h5
  rw [← errorsBlock_map, ← errorsBlock_map]
  rcases h2 with h2 | h2
  · rw [h2]
  · rcases h2.errors with ⟨-, h1⟩ | ⟨p, q, x, x', ⟨-, y', h2, rfl⟩, h3, h4⟩
    · rw [h1]
    · rw [hy] at h2
      cases h2
      rw [h4, h3, errorsBlock_append, errorsBlock_map, hz]
      simp

/-- **C102** It has errors with the program exactly if it has errors without it. -/
theorem C102_error_free {a l m b : Str} {ta : List Token} (ha : LinesOf a ta) (hl : OneStatement l)
    {nodes nodes' y : Block} (hm : BodyText m y)
    (h : tokenizeAndParse (a ++ '\n' :: (l ++ '\n' :: b)) = .ok (.ok nodes))
    (h' : tokenizeAndParse (a ++ '\n' :: (l ++ '\n' :: (m ++ '\n' :: b))) = .ok (.ok nodes')) :
    errorFreeBlock nodes' ↔ errorFreeBlock nodes := by
  have hk := C102_errors ha hl hm h h'
  rw [errorFreeBlock_errors, errorFreeBlock_errors]
  constructor <;> intro h3 <;> rw [h3] at hk
  · exact List.map_eq_nil_iff.1 hk.symm
  · exact List.map_eq_nil_iff.1 hk

-- A loop after `VISIBLE AN`, which is in error, in the body of a loop.
example : (∃ ta, LinesOf chars!"IM IN YR l" ta) ∧ OneStatement chars!"VISIBLE AN" ∧
    (∃ y, BodyText chars!"IM IN YR k\nx R 1\nIM OUTTA YR k" y) ∧
    (∃ x x' ts, tokenizeAndParse (chars!"IM IN YR l" ++ '\n' :: (chars!"VISIBLE AN" ++ '\n' :: chars!"IM OUTTA YR l")) =
        .ok (.ok x) ∧
      tokenizeAndParse (chars!"IM IN YR l" ++ '\n' :: (chars!"VISIBLE AN" ++ '\n' ::
        (chars!"IM IN YR k\nx R 1\nIM OUTTA YR k" ++ '\n' :: chars!"IM OUTTA YR l"))) = .ok (.ok x') ∧
      tokenize (chars!"IM IN YR l" ++ '\n' :: (chars!"VISIBLE AN" ++ '\n' :: chars!"IM OUTTA YR l")) = .ok (.ok ts) ∧
      [] ∉ (split ts).all ∧ (errorsBlock x).length = 1 ∧ (errorsBlock x').length = 1) := by
  refine ⟨⟨_, rfl, by decide +kernel⟩, ⟨_, _, ⟨rfl, by decide +kernel⟩, rfl, _, _, rfl, by decide +kernel⟩,
    ⟨_, _, ⟨rfl, by decide +kernel⟩, by decide +kernel, rfl, by simp [errorFreeBlock, Node.ErrorFree], ?_⟩,
    _, _, _, rfl, rfl, rfl, ?_⟩
  · intro n hn
    cases hn
    exact id
  decide +kernel

end Lol
