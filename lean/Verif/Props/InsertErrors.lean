import Verif.Parser.ClosedIn
import Verif.Props.DeleteLines
import Verif.Props.Joined

/-! # Inserting and deleting a program that has errors of its own (C106) -/

namespace Lol

/-- The lines `m` have the tree `y`, with or without errors; the test of C87 says that what follows them is read on its
own: `GTFO` after them adds its node and nothing else, and they do not end in a construct that is not closed. No
statement of them begins with a keyword that ends a block, or opens a part of a construct, and is unexpected. -/
structure SelfContained (m : Str) (y : Block) : Prop where
  lines : ∃ tm, LinesOf m tm ∧ stmt tm 0 ≠ [] ∧ ¬ StrayIn (split tm).all y
  tree : tokenizeAndParse (m ++ ['\n']) = .ok (.ok y)
  closed : ¬ EndsUnclosed y
  test : ∃ g, tokenizeAndParse (m ++ '\n' :: chars!"GTFO") = .ok (.ok (y ++ [.gtfo g]))

/-! ## Lemmas -/

private theorem mem_map {f : Token → Token} {n : Node} : ∀ {y : Block}, n ∈ mapBlock f y → ∃ n' ∈ y, n = n'.map f
  | [], h => by simp [mapBlock] at h
  | x :: y, h => by
    simp only [mapBlock, List.mem_cons] at h
    rcases h with rfl | h
    · exact ⟨_, List.mem_cons_self, rfl⟩
    · obtain ⟨n', h1, h2⟩ := mem_map h
      exact ⟨n', List.mem_cons_of_mem _ h1, h2⟩

private theorem map_error {f : Token → Token} {n : Node} {x : ASTError} (h : n.map f = .astError x) :
    ∃ x', n = .astError x' ∧ x = x'.map f := by
  cases n <;> simp [Node.map] at h
  exact ⟨_, rfl, h.symm⟩

private theorem stray_bare {L : List (List Token)} {y : Block}
    (h : StrayIn (bareStmts L) (mapBlock Token.unplaced y)) : StrayIn L y := by
  obtain ⟨k, hk, ⟨st, h1, h2⟩, t, h3, h4⟩ := h
  obtain ⟨st, h5, rfl⟩ := List.mem_map.1 h1
  refine ⟨k, hk, ⟨st, h5, fun h => h2 fun t r e => ?_⟩, ?_⟩
  · cases st with
    | nil => cases e
    | cons u st =>
      cases e
      exact h u st rfl
  · obtain ⟨n, h6, h7⟩ := mem_map h4
    obtain ⟨x, rfl, h8⟩ := map_error h7.symm
    cases x <;> cases h8
    rename_i t
    exact ⟨t, h3, h6⟩

private theorem unclosed_bare {x : ASTError} (h : (x.map Token.unplaced).Unclosed) : x.Unclosed := by
  generalize hx : x.map Token.unplaced = x' at h
  cases h with
  | loop t =>
    cases x <;> simp [ASTError.map] at hx
    rename_i z
    cases z <;> simp [ImInYrError.map] at hx
    exact .loop _
  | other t =>
    cases x <;> simp [ASTError.map] at hx
    exact .other _

private theorem ends_bare {y pre : Block} {x : ASTError} (h : mapBlock Token.unplaced y = pre ++ [.astError x])
    (hx : x.Unclosed) : EndsUnclosed y := by
  rcases List.eq_nil_or_concat y with rfl | ⟨z, n, rfl⟩
  · simp [mapBlock] at h
  · rw [List.concat_eq_append, mapBlock_append] at h
    have := (List.append_inj' h rfl).2
    simp only [mapBlock, List.cons.injEq, and_true] at this
    obtain ⟨x', rfl, rfl⟩ := map_error this
    exact ⟨z, x', by simp, unclosed_bare hx⟩

theorem SelfContained.bare {m : Str} {y : Block} (h : SelfContained m y) : ∃ tm, LinesOf m tm ∧ stmt tm 0 ≠ [] ∧
    parse tm = .ok y ∧ (∀ Q, ReadBefore (bareStmts (split tm).all) Q (· = mapBlock Token.unplaced y)) ∧
    ((∀ q ∈ bareStmts (split tm).all, PlainTokens q) →
      ∀ q ∈ bareStmts (split tm).all, ∀ p, ¬ ∀ l, StepR ⟨q, l⟩ (.panic p)) := by
  obtain ⟨⟨tm, h1, h2, h6⟩, h3, h4, ⟨g, h5⟩⟩ := h
  have hp := parse_of_tokenizeAndParse h1.1 h3
  refine ⟨tm, h1, h2, hp, fun Q => ?_, fun hq q hq' p => ?_⟩
  · obtain ⟨g0, e1, e2⟩ : ∃ g0, tokenize chars!"GTFO" = .ok (.ok [g0]) ∧ (split [g0]).all = [[g0]] := ⟨_, rfl, rfl⟩
    obtain ⟨ts, k1, k2, -⟩ := h1.then h2 e1 (by rw [stmt, e2]; simp)
    rw [e2] at k2
    have kp := parse_of_tokenizeAndParse k1 h5
    have b1 := parse_bare tm
    have b2 := parse_bare ts
    rw [hp] at b1
    rw [kp, k2] at b2
    obtain ⟨s1, b1⟩ := parseStmts_ok_iff.1 b1.symm
    obtain ⟨s2, b2⟩ := parseStmts_ok_iff.1 b2.symm
    obtain ⟨c, l, hcl⟩ : ∃ c l, (split tm).all = c :: l := ⟨_, _, rfl⟩
    have hc : c ≠ [] := by
      intro hc
      rw [stmt, hcl, hc] at h2
      exact h2 rfl
    rw [hcl] at b1 b2 h6 ⊢
    rw [mapBlock_append] at b2
    refine BlockR.readBefore (g := g0.unplaced) (n := .gtfo g.unplaced) (by simp) ?_ b1 ?_ ?_ b2 Q
    · simpa using hc
    · exact fun hs => h6 (stray_bare hs)
    · intro pre x e hx
      exact h4 (ends_bare e hx)
  · refine Runs.total (f := Token.unplaced) (fun _ => rfl) hp (fun st hst => ?_) q hq' p
    obtain ⟨t, r, e, k1, k2⟩ := hq _ (List.mem_map_of_mem hst)
    cases st with
    | nil => cases e
    | cons u st =>
      cases e
      exact ⟨u, st, rfl, k1, k2⟩

/-! ## C106 -/

/-- **C106** A program that has errors of its own can be inserted in any source that has a tree, after any statement
that opens no block and ends none: the source still has a tree, and without positions it is the same, or it is except
that it has, right after the nodes of that statement, those of the program, errors included, at any depth. -/
theorem C106_insert {a l m b : Str} {ta : List Token} (ha : LinesOf a ta) (hl : OneStatement l) {nodes y : Block}
    (hm : SelfContained m y) (h : tokenizeAndParse (a ++ '\n' :: (l ++ '\n' :: b)) = .ok (.ok nodes)) :
    ∃ nodes', tokenizeAndParse (a ++ '\n' :: (l ++ '\n' :: (m ++ '\n' :: b))) = .ok (.ok nodes') ∧
      (mapBlock Token.unplaced nodes' = mapBlock Token.unplaced nodes ∨
        Edited (ThenText l m) (mapBlock Token.unplaced nodes) (mapBlock Token.unplaced nodes')) := by
  obtain ⟨tm, h1, h2, h3, h4, h5⟩ := hm.bare
  obtain ⟨nodes', h6, h7⟩ := insert_edit_of ha hl h1 h2 h3 (fun Q => h4 _) h5 h
  exact ⟨nodes', h6, h7.imp_left And.left⟩

/-- **C106** If no statement of the source is empty, the nodes of the program are there, unless they were dropped with a
construct that is in error. -/
theorem C106_there {a l m b : Str} {ta ts : List Token} (ha : LinesOf a ta) (hl : OneStatement l) {nodes nodes' y : Block}
    (hm : SelfContained m y) (h : tokenizeAndParse (a ++ '\n' :: (l ++ '\n' :: b)) = .ok (.ok nodes))
    (h' : tokenizeAndParse (a ++ '\n' :: (l ++ '\n' :: (m ++ '\n' :: b))) = .ok (.ok nodes'))
    (ht : tokenize (a ++ '\n' :: (l ++ '\n' :: b)) = .ok (.ok ts)) (hs : [] ∉ (split ts).all) :
    Edited (ThenText l m) (mapBlock Token.unplaced nodes) (mapBlock Token.unplaced nodes') := by
  obtain ⟨tm, h1, h2, h3, h4, h5⟩ := hm.bare
  obtain ⟨nodes'', h6, h7⟩ := insert_edit_of ha hl h1 h2 h3 (fun Q => h4 _) h5 h
  rw [h'] at h6
  cases h6
  refine h7.resolve_left ?_
  rintro ⟨-, ts', h1, h2⟩
  rw [ht] at h1
  cases h1
  exact hs h2

/-- **C106** The errors of the source stay, in their order: they are all there are, or those of the program stand
together among them. -/
theorem C106_errors {a l m b : Str} {ta : List Token} (ha : LinesOf a ta) (hl : OneStatement l) {nodes nodes' y : Block}
    (hm : SelfContained m y) (h : tokenizeAndParse (a ++ '\n' :: (l ++ '\n' :: b)) = .ok (.ok nodes))
    (h' : tokenizeAndParse (a ++ '\n' :: (l ++ '\n' :: (m ++ '\n' :: b))) = .ok (.ok nodes')) :
    (errorsBlock nodes').map (ASTError.map Token.unplaced) = (errorsBlock nodes).map (ASTError.map Token.unplaced) ∨
    ∃ p q, (errorsBlock nodes).map (ASTError.map Token.unplaced) = p ++ q ∧
      (errorsBlock nodes').map (ASTError.map Token.unplaced) =
        p ++ (errorsBlock y).map (ASTError.map Token.unplaced) ++ q := by
  obtain ⟨nodes'', h1, h2⟩ := C106_insert ha hl hm h
  rw [h'] at h1
  cases h1
  simp only [← errorsBlock_map]
  rcases h2 with h2 | h2
  · exact .inl (by rw [h2])
  · rcases h2.errors with ⟨-, h1⟩ | ⟨p, q, x, x', ⟨-, y', h2, rfl⟩, h3, h4⟩
    · exact .inl (by rw [h1])
    · rw [hm.tree] at h2
      cases h2
      refine .inr ⟨p ++ errorsBlock x, q, by rw [h3, List.append_assoc], ?_⟩
      rw [h4, errorsBlock_append]
      simp

/-- **C106** Such a program can be deleted where it follows a statement: the source without it has a tree, and the two
trees are those of the insertion. -/
theorem C106_delete {a l m b : Str} {ta : List Token} (ha : LinesOf a ta) (hl : OneStatement l) {nodes' y : Block}
    (hm : SelfContained m y) (h : tokenizeAndParse (a ++ '\n' :: (l ++ '\n' :: (m ++ '\n' :: b))) = .ok (.ok nodes')) :
    ∃ nodes, tokenizeAndParse (a ++ '\n' :: (l ++ '\n' :: b)) = .ok (.ok nodes) ∧
      (mapBlock Token.unplaced nodes' = mapBlock Token.unplaced nodes ∨
        Edited (ThenText l m) (mapBlock Token.unplaced nodes) (mapBlock Token.unplaced nodes')) := by
  obtain ⟨tm, h1, h2, -, h4, -⟩ := hm.bare
  obtain ⟨nodes, h5⟩ := deleted ha hl h1 h2 (fun Q => ⟨_, h4 Q⟩) h
  obtain ⟨nodes'', h6, h7⟩ := C106_insert ha hl hm h5
  rw [h] at h6
  cases h6
  exact ⟨nodes, h5, h7⟩

/-- **C106** With the program after a statement a source has a tree just when it has one without it. -/
theorem C106_iff {a l m b : Str} {ta : List Token} (ha : LinesOf a ta) (hl : OneStatement l) {y : Block}
    (hm : SelfContained m y) :
    (∃ nodes, tokenizeAndParse (a ++ '\n' :: (l ++ '\n' :: (m ++ '\n' :: b))) = .ok (.ok nodes)) ↔
      ∃ nodes, tokenizeAndParse (a ++ '\n' :: (l ++ '\n' :: b)) = .ok (.ok nodes) := by
  constructor
  · rintro ⟨_, h⟩
    obtain ⟨nodes, h1, -⟩ := C106_delete ha hl hm h
    exact ⟨nodes, h1⟩
  · rintro ⟨_, h⟩
    obtain ⟨nodes, h1, -⟩ := C106_insert ha hl hm h
    exact ⟨nodes, h1⟩

/-- **C106** It panics just when it does so without the program, and at the same place in the code. -/
theorem C106_panic {a l m b : Str} {ta : List Token} (ha : LinesOf a ta) (hl : OneStatement l) {y : Block}
    (hm : SelfContained m y) (p : PanicSite) :
    tokenizeAndParse (a ++ '\n' :: (l ++ '\n' :: (m ++ '\n' :: b))) = .panic p ↔
      tokenizeAndParse (a ++ '\n' :: (l ++ '\n' :: b)) = .panic p := by
  obtain ⟨tm, h1, h2, -, h4, h5⟩ := hm.bare
  refine same_panic ha hl h1 h2 (fun Q => ⟨_, h4 Q⟩) ?_ (C106_iff ha hl hm).2 p
  rintro p p' (h | ⟨h6, q, h7, h8⟩)
  · exact h
  · exact (h5 h6 q h7 p' h8).elim

/-- **C106** A program that has errors can be exchanged for another one, say one without errors: the source has a tree
with the one just when it has a tree with the other, and it panics with the one just when it does so with the other. -/
theorem C106_exchange {a l m m' b : Str} {ta : List Token} (ha : LinesOf a ta) (hl : OneStatement l) {y y' : Block}
    (hm : SelfContained m y) (hm' : SelfContained m' y') :
    ((∃ nodes, tokenizeAndParse (a ++ '\n' :: (l ++ '\n' :: (m ++ '\n' :: b))) = .ok (.ok nodes)) ↔
      ∃ nodes, tokenizeAndParse (a ++ '\n' :: (l ++ '\n' :: (m' ++ '\n' :: b))) = .ok (.ok nodes)) ∧
    ∀ p, tokenizeAndParse (a ++ '\n' :: (l ++ '\n' :: (m ++ '\n' :: b))) = .panic p ↔
      tokenizeAndParse (a ++ '\n' :: (l ++ '\n' :: (m' ++ '\n' :: b))) = .panic p :=
  ⟨(C106_iff ha hl hm).trans (C106_iff ha hl hm').symm,
    fun p => (C106_panic ha hl hm p).trans (C106_panic ha hl hm' p).symm⟩

private theorem no_error {x : ASTError} : ∀ {y : Block}, errorFreeBlock y → .astError x ∉ y
  | [], _, h => by cases h
  | n :: y, hy, h => by
    rcases List.mem_cons.1 h with rfl | h
    · exact hy.1
    · exact no_error hy.2 h

/-- **C106** The programs without errors of C102 and C104 are among these. -/
theorem C106_of_error_free {m : Str} {y : Block} (hm : BodyText m y) : SelfContained m y := by
  obtain ⟨tm, h1, h2, h3, h4⟩ := hm.nodes
  obtain ⟨tm', k1, k2, k3, k4, k5⟩ := id hm
  have hy := tokenizeAndParse_of k1.1 k3
  refine ⟨⟨tm, h1, h2, ?_⟩, hy, ?_, ?_⟩
  · rintro ⟨k, -, -, t, -, h⟩
    exact no_error k4 h
  · rintro ⟨pre, x, rfl, -⟩
    exact no_error (x := x) k4 (by simp)
  · have := C56_sources_error_free (b := chars!"GTFO") k1.1 k1.2.1 k1.2.2 (fun st hst h => k2 (h ▸ hst)) hy k4 k5 (by
      intro us hus
      cases hus
      decide +kernel)
    exact ⟨_, this⟩

private theorem unclosed_leftover {x : ASTError} {c : List Token} (h : .astError x ∈ leftoverNodes c) : ¬ x.Unclosed := by
  unfold leftoverNodes at h
  split at h
  · cases h
  · cases List.mem_singleton.1 h
    exact fun h => nomatch h

private theorem Runs.closed {x : ASTError} : ∀ {ps : List (List Token)} {ys : Block}, Runs ps ys →
    (∀ q ∈ ps, PlainTokens q) → .astError x ∈ ys → ¬ x.Unclosed
  | _, _, .nil, _, h => by cases h
  | _, _, .cons (p := p) h1 h2, hp, h => by
    rcases List.mem_append.1 h with h | h
    · obtain ⟨t, r, rfl, ht, -⟩ := hp _ List.mem_cons_self
      obtain ⟨ts, rest, he, ⟨node, hs⟩ | ⟨f, hs⟩⟩ := flat_total ht r
      · have := h1 []
        rw [he] at this
        cases this.det (.ok (.simple hs))
        rcases List.mem_cons.1 h with h | h
        · cases h
          nomatch hs
        · exact unclosed_leftover h
      · have := h1 []
        rw [he] at this
        cases f with
        | error e =>
          cases this.det (.error (.simpleFail hs))
          rcases List.mem_cons.1 h with h | h
          · cases h
            have := hs.notOfBlock
            intro hx
            refine this ?_
            cases hx <;> trivial
          · exact unclosed_leftover h
        | panic p => cases this.det (.panic (.simpleFail hs))
    · exact h2.closed (fun q hq => hp q (List.mem_cons_of_mem _ hq)) h

/-- **C106** So are the statements of C80 and C104, in error or not, that have a tree of their own. -/
theorem C106_of_statements {m : Str} {y : Block} (hm : SomeStatements m)
    (hy : tokenizeAndParse (m ++ ['\n']) = .ok (.ok y)) : SelfContained m y := by
  obtain ⟨tm, h1, h2⟩ := hm
  have hp := parse_of_tokenizeAndParse h1.1 hy
  have h0 : stmt tm 0 ≠ [] := Plain.ne_nil (h2 _ (by simp [stmt, Stmts.all]))
  have hts : tm ≠ [] := by
    rintro rfl
    exact h0 rfl
  obtain ⟨g0, e1, e2⟩ : ∃ g0 : Token, tokenize chars!"GTFO" = .ok (.ok [g0]) ∧ g0.tokenType = .keyword .GTFO :=
    ⟨_, rfl, rfl⟩
  have one : ∀ g : Token, g.tokenType = .keyword .GTFO → (split [g]).all = [[g]] := fun g hg => by
    simp [split, splitFrom, firstLine, hg, Stmts.push, Stmts.all]
  obtain ⟨-, -, k3⟩ := split_append_shift (dc := 0) (db := utf8Len m + 1) (dch := m.length + 1) h1.2.2 hts
    (by rw [stmt, one g0 e2]; simp) (h1.before e1)
  have k1 := C54_lines (b := chars!"GTFO") h1.1 h1.2.1
  rw [e1] at k1
  generalize hf : Token.shift 1 ((lineColumn tm (m ++ ['\n']) 0 1 1).1 - 1) 0 (utf8Len m + 1) (m.length + 1) = f at k3
  have k2 : tokenize (m ++ '\n' :: chars!"GTFO") = .ok (.ok (tm ++ [f g0])) := by
    rw [k1, ← hf]
    rfl
  have hg : (f g0).tokenType = .keyword .GTFO := by
    rw [← hf]
    exact e2
  have k3 : (split (tm ++ [f g0])).all = (split tm).all ++ [[f g0]] := by
    rw [← one _ hg]
    exact k3
  have hr : Rest [] (.of [[f g0]]) (.ok [.gtfo (f g0)] ⟨[], []⟩) :=
    .more (by
      rintro (h | ⟨_, _, _, k, hk, _⟩)
      · cases h
      · cases hk)
      (.last (.ok (.simple (ts := [f g0]) (rest := []) (.gtfo hg))) (.inl rfl))
  rcases hr.run (by simp) (split tm).all h2 with ⟨ys, r1, r2⟩ | ⟨p, -, q, hq, r3⟩
  · have e := parseStmts_ok_iff.2 ⟨_, r1.block h2 (by simp [Stmts.all])⟩
    have e' : parse tm = .ok ys := by
      rw [parse_eq]
      exact e
    rw [hp] at e'
    cases e'
    refine ⟨⟨tm, h1, h0, ?_⟩, hy, ?_, f g0, tokenizeAndParse_of k2 ?_⟩
    · rintro ⟨k, hk, ⟨st, hst, hn⟩, -⟩
      exact hn (PlainTokens.notFirst (h2 st hst) hk)
    · rintro ⟨pre, x, rfl, hx⟩
      exact r1.closed (x := x) h2 (by simp) hx
    · rw [parse_eq]
      have : split (tm ++ [f g0]) = .of ((split tm).all ++ [[f g0]]) := by
        rw [← k3]
        rfl
      rw [this]
      generalize hz : Read.map _ _ = z at r2
      cases r2 with
      | stop => simp [Read.map] at hz
      | more _ hb =>
        rw [← hz] at hb
        exact parseStmts_ok_iff.2 ⟨_, hb⟩
  · have := Runs.total (f := id) (fun _ => rfl) hp h2 q (by simpa using hq) p r3
    exact this.elim

example : SomeStatements chars!"VISIBLE OIC\nx R" ∧
    ∃ y, tokenizeAndParse (chars!"VISIBLE OIC\nx R" ++ ['\n']) = .ok (.ok y) ∧ (errorsBlock y).length = 2 := by
  refine ⟨⟨_, ⟨rfl, by decide +kernel⟩, ?_⟩, _, rfl, by decide +kernel⟩
  intro q hq
  rcases List.mem_cons.1 hq with rfl | hq
  · exact ⟨_, _, rfl, by decide +kernel⟩
  · rcases List.mem_cons.1 hq with rfl | hq
    · exact ⟨_, _, rfl, by decide +kernel⟩
    · cases hq

-- A loop with an error in its body and an error after its end, inserted after `GTFO` in the body of a loop.
example : (∃ ta, LinesOf chars!"IM IN YR l" ta) ∧ OneStatement chars!"GTFO" ∧
    (∃ y, SelfContained chars!"IM IN YR k\nVISIBLE AN\nIM OUTTA YR k x" y ∧ (errorsBlock y).length = 2) ∧
    ∃ x x' ts, tokenizeAndParse (chars!"IM IN YR l" ++ '\n' :: (chars!"GTFO" ++ '\n' :: chars!"IM OUTTA YR l")) =
        .ok (.ok x) ∧
      tokenizeAndParse (chars!"IM IN YR l" ++ '\n' :: (chars!"GTFO" ++ '\n' ::
        (chars!"IM IN YR k\nVISIBLE AN\nIM OUTTA YR k x" ++ '\n' :: chars!"IM OUTTA YR l"))) = .ok (.ok x') ∧
      tokenize (chars!"IM IN YR l" ++ '\n' :: (chars!"GTFO" ++ '\n' :: chars!"IM OUTTA YR l")) = .ok (.ok ts) ∧
      [] ∉ (split ts).all ∧ (errorsBlock x).length = 0 ∧ (errorsBlock x').length = 2 := by
  obtain ⟨tm, hm⟩ : ∃ ts, tokenize (chars!"IM IN YR k\nVISIBLE AN\nIM OUTTA YR k x" ++ ['\n']) = .ok (.ok ts) :=
    ⟨_, rfl⟩
  obtain ⟨tg, hg⟩ : ∃ ts, tokenize (chars!"IM IN YR k\nVISIBLE AN\nIM OUTTA YR k x" ++ '\n' :: chars!"GTFO") =
    .ok (.ok ts) := ⟨_, rfl⟩
  have e : tm = tg.take 7 := by
    cases hm
    cases hg
    decide +kernel
  have hl : LinesOf chars!"IM IN YR k\nVISIBLE AN\nIM OUTTA YR k x" tm ∧ stmt tm 0 ≠ [] := by
    refine ⟨⟨hm, ?_⟩, ?_⟩ <;> cases hm <;> decide +kernel
  have hy : ∃ y g, tg.getLast? = some g ∧ parse tm = .ok y ∧ parse tg = .ok (y ++ [.gtfo g]) ∧
      ¬ EndsUnclosed y ∧ ¬ StrayIn (split tm).all y ∧ (errorsBlock y).length = 2 := by
    rw [e]
    clear hl hm
    cases hg
    refine ⟨_, _, rfl, rfl, rfl, ?_, ?_, by decide +kernel⟩
    · rintro ⟨pre, x, h1, h2⟩
      have := congrArg List.getLast? h1
      simp at this
      subst this
      cases h2
    · rintro ⟨k, -, -, t, -, h⟩
      simp at h
  obtain ⟨y, g, -, h1, h2, h3, h4, h5⟩ := hy
  refine ⟨⟨_, rfl, by decide +kernel⟩, ⟨_, _, ⟨rfl, by decide +kernel⟩, rfl, _, _, rfl, by decide +kernel⟩,
    ⟨y, ⟨⟨tm, hl.1, hl.2, h4⟩, tokenizeAndParse_of hm h1, h3, ⟨g, tokenizeAndParse_of hg h2⟩⟩, h5⟩,
    _, _, _, rfl, rfl, rfl, ?_⟩
  decide +kernel

end Lol
