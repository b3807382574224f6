import Verif.Parser.EditPanic
import Verif.Props.Exchange

/-! # Deleting lines from a source text (C104) -/

namespace Lol

/-- The statements of a text with a second text on the next lines. -/
theorem LinesOf.join_stmts {a b : Str} {ta tb : List Token} (ha : LinesOf a ta) (ha0 : stmt ta 0 ≠ [])
    (hb : LinesOf b tb) (hb0 : stmt tb 0 ≠ []) :
    ∃ ts, LinesOf (a ++ '\n' :: b) ts ∧ stmt ts 0 ≠ [] ∧
      bareStmts (split ts).all = bareStmts (split ta).all ++ bareStmts (split tb).all := by
  obtain ⟨ts, h1, -⟩ := ha.join hb
  obtain ⟨us, h2, h3, h4⟩ := ha.then ha0 hb.1 hb0
  have e : tokenize ((a ++ '\n' :: b) ++ ['\n']) = tokenize (a ++ '\n' :: (b ++ ['\n'])) := by simp
  have := h1.1.symm.trans (e.trans h2)
  cases this
  exact ⟨_, h1, h4, h3⟩

/-- Tokens without errors give a tree or a panic of the parser. -/
private theorem outcome {c : Str} {ts : List Token} (h : tokenize c = .ok (.ok ts)) :
    (∃ nodes, parse ts = .ok nodes ∧ tokenizeAndParse c = .ok (.ok nodes)) ∨
      ∃ p, parse ts = .panic p ∧ tokenizeAndParse c = .panic p := by
  have := parseStmts_post (split ts)
  rw [← parse_eq] at this
  unfold tokenizeAndParse
  rw [h]
  cases hp : parse ts with
  | ok nodes => exact .inl ⟨nodes, rfl, by simp [hp, bind, Out.bind, pure]⟩
  | panic p => exact .inr ⟨p, rfl, by simp [hp, bind, Out.bind]⟩
  | outOfFuel => rw [hp] at this; exact this.elim

/-- A panic stays one when statements are put after a plain one. -/
private theorem panic_stays {a l m b : Str} {ta tm tb : List Token} (ha : LinesOf a ta) (hl : OneStatement l)
    (hm : LinesOf m tm) (hm0 : stmt tm 0 ≠ []) (hr : ∀ Q, ∃ Run, ReadBefore (bareStmts (split tm).all) Q Run)
    (hb : tokenize b = .ok (.ok tb)) {p : PanicSite}
    (h : tokenizeAndParse (a ++ '\n' :: (l ++ '\n' :: b)) = .panic p) :
    ∃ p', tokenizeAndParse (a ++ '\n' :: (l ++ '\n' :: (m ++ '\n' :: b))) = .panic p' ∧
      OrBy (bareStmts (split tm).all) p p' := by
  obtain ⟨tl, st, hl1, hl2, hl3⟩ := hl
  have hl0 : stmt tl 0 ≠ [] := by rw [stmt, hl2]; exact hl3.ne_nil
  obtain ⟨P, Q, hPQ⟩ := ha.with_body hb
  obtain ⟨tj, hj, hj0, hj1⟩ := hl1.join_stmts hl0 hm hm0
  obtain ⟨ts, h1, h2⟩ := hPQ l tl hl1 hl0
  obtain ⟨ts', h1', h2'⟩ := hPQ _ tj hj hj0
  rw [List.append_assoc, List.cons_append] at h1'
  have e1 : bareStmts (split ts).all = P ++ st.map Token.unplaced :: Q := by rw [h2, hl2]; rfl
  have e2 : bareStmts (split ts').all = P ++ st.map Token.unplaced :: (bareStmts (split tm).all ++ Q) := by
    rw [h2', hj1, hl2]
    simp [bareStmts]
  rcases outcome h1 with ⟨_, -, h3⟩ | ⟨p0, hp, h3⟩
  · rw [h] at h3; cases h3
  rw [h] at h3
  cases h3
  have g1 := parse_bare ts
  rw [hp, e1] at g1
  obtain ⟨Run, hR⟩ := hr Q
  obtain ⟨p', g3, g5⟩ := (parseStmts_panic_iff.1 g1.symm).panics (hl3.map (f := Token.unplaced) fun _ => rfl) hR p rfl
    (by simp) _ (near_of P)
  refine ⟨p', ?_, g5⟩
  have g4 := parse_bare ts'
  rw [e2, parseStmts_panic_iff.2 g3] at g4
  rcases outcome h1' with ⟨_, h3, -⟩ | ⟨p1, h3, h4⟩
  · rw [h3] at g4; cases g4
  · rw [h3] at g4
    cases g4
    exact h4

/-- Without the lines a source has the tokens of `b` as with them. -/
private theorem tokenize_both {a l m b : Str} {ta tm : List Token} (ha : LinesOf a ta) (hl : OneStatement l)
    (hm : LinesOf m tm) :
    (∃ tb, tokenize b = .ok (.ok tb) ∧ (∃ ts, tokenize (a ++ '\n' :: (l ++ '\n' :: b)) = .ok (.ok ts)) ∧
      ∃ ts, tokenize (a ++ '\n' :: (l ++ '\n' :: (m ++ '\n' :: b))) = .ok (.ok ts)) ∨
    ((∃ e, tokenizeAndParse (a ++ '\n' :: (l ++ '\n' :: b)) = .ok (.error e)) ∧
      ∃ e, tokenizeAndParse (a ++ '\n' :: (l ++ '\n' :: (m ++ '\n' :: b))) = .ok (.error e)) ∨
    (∃ p, tokenizeAndParse (a ++ '\n' :: (l ++ '\n' :: b)) = .panic p ∧
      tokenizeAndParse (a ++ '\n' :: (l ++ '\n' :: (m ++ '\n' :: b))) = .panic p) ∨
    tokenizeAndParse (a ++ '\n' :: (l ++ '\n' :: b)) = .outOfFuel ∧
      tokenizeAndParse (a ++ '\n' :: (l ++ '\n' :: (m ++ '\n' :: b))) = .outOfFuel := by
  obtain ⟨tl, st, hl1, -⟩ := hl
  have e1 := C54_lines (b := l ++ '\n' :: (m ++ '\n' :: b)) ha.1 ha.2.1
  have e2 := C54_lines (b := m ++ '\n' :: b) hl1.1 hl1.2.1
  have e3 := C54_lines (b := b) hm.1 hm.2.1
  have e4 := C54_lines (b := l ++ '\n' :: b) ha.1 ha.2.1
  have e5 := C54_lines (b := b) hl1.1 hl1.2.1
  rw [e3] at e2
  rw [e2] at e1
  rw [e5] at e4
  rcases hb : tokenize b with (e | us) | p | _
  all_goals simp only [hb, joinLines] at e1 e4
  · refine .inr (.inl ?_)
    unfold tokenizeAndParse
    rw [e1, e4]
    exact ⟨⟨_, rfl⟩, _, rfl⟩
  · exact .inl ⟨us, rfl, ⟨_, e4⟩, _, e1⟩
  · refine .inr (.inr (.inl ⟨p, ?_⟩))
    unfold tokenizeAndParse
    rw [e1, e4]
    exact ⟨rfl, rfl⟩
  · refine .inr (.inr (.inr ?_))
    unfold tokenizeAndParse
    rw [e1, e4]
    exact ⟨rfl, rfl⟩

/-- A source that has a tree still has one when statements after a plain one are taken out. -/
theorem deleted {a l m b : Str} {ta tm : List Token} (ha : LinesOf a ta) (hl : OneStatement l)
    (hm : LinesOf m tm) (hm0 : stmt tm 0 ≠ []) (hr : ∀ Q, ∃ Run, ReadBefore (bareStmts (split tm).all) Q Run)
    {nodes' : Block} (h : tokenizeAndParse (a ++ '\n' :: (l ++ '\n' :: (m ++ '\n' :: b))) = .ok (.ok nodes')) :
    ∃ nodes, tokenizeAndParse (a ++ '\n' :: (l ++ '\n' :: b)) = .ok (.ok nodes) := by
  rcases tokenize_both (b := b) ha hl hm with ⟨tb, hb, ⟨ts, h1⟩, -⟩ | ⟨-, e, he⟩ | ⟨p, -, he⟩ | ⟨-, he⟩
  · rcases outcome h1 with ⟨nodes, -, h2⟩ | ⟨p, -, h2⟩
    · exact ⟨nodes, h2⟩
    · obtain ⟨p', h3, -⟩ := panic_stays ha hl hm hm0 hr hb h2
      rw [h] at h3
      cases h3
  all_goals rw [h] at he; cases he

/-- The panics agree when no statement that was put in panics. -/
theorem same_panic {a l m b : Str} {ta tm : List Token} (ha : LinesOf a ta) (hl : OneStatement l)
    (hm : LinesOf m tm) (hm0 : stmt tm 0 ≠ []) (hr : ∀ Q, ∃ Run, ReadBefore (bareStmts (split tm).all) Q Run)
    (hn : ∀ p p', OrBy (bareStmts (split tm).all) p p' → p' = p)
    (hi : (∃ nodes, tokenizeAndParse (a ++ '\n' :: (l ++ '\n' :: b)) = .ok (.ok nodes)) →
      ∃ nodes, tokenizeAndParse (a ++ '\n' :: (l ++ '\n' :: (m ++ '\n' :: b))) = .ok (.ok nodes)) (p : PanicSite) :
    tokenizeAndParse (a ++ '\n' :: (l ++ '\n' :: (m ++ '\n' :: b))) = .panic p ↔
      tokenizeAndParse (a ++ '\n' :: (l ++ '\n' :: b)) = .panic p := by
  rcases tokenize_both (b := b) ha hl hm with ⟨tb, hb, ⟨ts, h1⟩, -⟩ | ⟨⟨e, he⟩, e', he'⟩ | ⟨p, he, he'⟩ | ⟨he, he'⟩
  · rcases outcome h1 with ⟨nodes, -, h2⟩ | ⟨p0, -, h2⟩
    · obtain ⟨nodes', h3⟩ := hi ⟨nodes, h2⟩
      rw [h2, h3]
      constructor <;> intro h <;> cases h
    · obtain ⟨p', h3, h4⟩ := panic_stays ha hl hm hm0 hr hb h2
      rw [h2, h3, hn _ _ h4]
  · rw [he, he']
    constructor <;> intro h <;> cases h
  · rw [he, he']
  · rw [he, he']

/-! ## C104 -/

/-- **C104** A program without errors that follows a statement can be deleted from any source that has a tree: the
source without it has a tree, and the two trees are those of C102. -/
theorem C104_delete {a l m b : Str} {ta : List Token} (ha : LinesOf a ta) (hl : OneStatement l) {nodes' y : Block}
    (hm : BodyText m y) (h : tokenizeAndParse (a ++ '\n' :: (l ++ '\n' :: (m ++ '\n' :: b))) = .ok (.ok nodes')) :
    ∃ nodes, tokenizeAndParse (a ++ '\n' :: (l ++ '\n' :: b)) = .ok (.ok nodes) ∧
      (mapBlock Token.unplaced nodes' = mapBlock Token.unplaced nodes ∨
        Edited (ThenText l m) (mapBlock Token.unplaced nodes) (mapBlock Token.unplaced nodes')) := by
  obtain ⟨tm, h1, h2, -, h3⟩ := hm.bare
  obtain ⟨nodes, h4⟩ := deleted ha hl h1 h2 (fun Q => ⟨_, by
    simpa using NodesG.readBefore (f := id) (fun _ => rfl) h3 Q⟩) h
  obtain ⟨nodes'', h5, h6⟩ := C102_insert ha hl hm h4
  rw [h] at h5
  cases h5
  exact ⟨nodes, h4, h6⟩

/-- **C104** Statements that follow a statement can be deleted from any source that has a tree, whether they are in
error or not: the source without them has a tree, and the two trees are those of C80. -/
theorem C104_delete_lines {a l m b : Str} {ta : List Token} (ha : LinesOf a ta) (hl : OneStatement l)
    (hm : SomeStatements m) {nodes' : Block}
    (h : tokenizeAndParse (a ++ '\n' :: (l ++ '\n' :: (m ++ '\n' :: b))) = .ok (.ok nodes')) :
    ∃ nodes, tokenizeAndParse (a ++ '\n' :: (l ++ '\n' :: b)) = .ok (.ok nodes) ∧
      (mapBlock Token.unplaced nodes' = mapBlock Token.unplaced nodes ∨
        Edited (ThenText l m) (mapBlock Token.unplaced nodes) (mapBlock Token.unplaced nodes')) := by
  obtain ⟨tm, h1, h2⟩ := id hm
  have h0 : Plain (stmt tm 0) := h2 _ (by simp [stmt, Stmts.all])
  obtain ⟨nodes, h4⟩ := deleted ha hl h1 h0.ne_nil (fun Q => ⟨_, .plain fun q hq => by
    obtain ⟨q', h5, rfl⟩ := List.mem_map.1 hq
    exact (h2 q' h5).map (f := Token.unplaced) fun _ => rfl⟩) h
  exact ⟨nodes, h4, C80_lines ha hl hm h4 h⟩

/-- **C104** With a program without errors after a statement a source has a tree just when it has one without it. -/
theorem C104_iff {a l m b : Str} {ta : List Token} (ha : LinesOf a ta) (hl : OneStatement l) {y : Block}
    (hm : BodyText m y) :
    (∃ nodes, tokenizeAndParse (a ++ '\n' :: (l ++ '\n' :: (m ++ '\n' :: b))) = .ok (.ok nodes)) ↔
      ∃ nodes, tokenizeAndParse (a ++ '\n' :: (l ++ '\n' :: b)) = .ok (.ok nodes) := by
  constructor
  · rintro ⟨_, h⟩
    obtain ⟨nodes, h1, -⟩ := C104_delete ha hl hm h
    exact ⟨nodes, h1⟩
  · rintro ⟨_, h⟩
    obtain ⟨nodes, h1, -⟩ := C102_insert ha hl hm h
    exact ⟨nodes, h1⟩

/-- **C104** The same with statements that have a tree of their own. -/
theorem C104_lines_iff {a l m b : Str} {ta : List Token} (ha : LinesOf a ta) (hl : OneStatement l)
    (hm : SomeStatements m) {y : Block} (hy : tokenizeAndParse (m ++ ['\n']) = .ok (.ok y)) :
    (∃ nodes, tokenizeAndParse (a ++ '\n' :: (l ++ '\n' :: (m ++ '\n' :: b))) = .ok (.ok nodes)) ↔
      ∃ nodes, tokenizeAndParse (a ++ '\n' :: (l ++ '\n' :: b)) = .ok (.ok nodes) := by
  constructor
  · rintro ⟨_, h⟩
    obtain ⟨nodes, h1, -⟩ := C104_delete_lines ha hl hm h
    exact ⟨nodes, h1⟩
  · rintro ⟨_, h⟩
    exact C80_no_fail ha hl hm h hy

/-- **C104** A program without errors that follows a statement can be exchanged for another one in any source that has
a tree, also in one with errors: the new source has a tree, with the same errors in the same order. -/
theorem C104_exchange {a l m m' b : Str} {ta : List Token} (ha : LinesOf a ta) (hl : OneStatement l) {x y y' : Block}
    (hm : BodyText m y) (hm' : BodyText m' y')
    (h : tokenizeAndParse (a ++ '\n' :: (l ++ '\n' :: (m ++ '\n' :: b))) = .ok (.ok x)) :
    ∃ x', tokenizeAndParse (a ++ '\n' :: (l ++ '\n' :: (m' ++ '\n' :: b))) = .ok (.ok x') ∧
      (errorsBlock x').map (ASTError.map Token.unplaced) = (errorsBlock x).map (ASTError.map Token.unplaced) := by
  obtain ⟨nodes, h1, -⟩ := C104_delete ha hl hm h
  obtain ⟨x', h2, -⟩ := C102_insert ha hl hm' h1
  exact ⟨x', h2, (C102_errors ha hl hm' h1 h2).trans (C102_errors ha hl hm h1 h).symm⟩

/-- **C104** With a program without errors after a statement a source panics just when it does so without it, and at
the same place in the code. -/
theorem C104_panic {a l m b : Str} {ta : List Token} (ha : LinesOf a ta) (hl : OneStatement l) {y : Block}
    (hm : BodyText m y) (p : PanicSite) :
    tokenizeAndParse (a ++ '\n' :: (l ++ '\n' :: (m ++ '\n' :: b))) = .panic p ↔
      tokenizeAndParse (a ++ '\n' :: (l ++ '\n' :: b)) = .panic p := by
  obtain ⟨tm, h1, h2, -, h3⟩ := hm.bare
  refine same_panic ha hl h1 h2 (fun Q => ⟨_, by
    simpa using NodesG.readBefore (f := id) (fun _ => rfl) h3 Q⟩) ?_ (C104_iff ha hl hm).2 p
  rintro p p' (h | ⟨h4, q, h5, h6⟩)
  · exact h
  · have := h3.no_panic (f := id) (fun _ => rfl)
    simp only [List.map_id_fun, List.map_id] at this
    exact (this h4 q h5 p' h6).elim

/-- **C104** The same with statements that have a tree of their own. -/
theorem C104_lines_panic {a l m b : Str} {ta : List Token} (ha : LinesOf a ta) (hl : OneStatement l)
    (hm : SomeStatements m) {y : Block} (hy : tokenizeAndParse (m ++ ['\n']) = .ok (.ok y)) (p : PanicSite) :
    tokenizeAndParse (a ++ '\n' :: (l ++ '\n' :: (m ++ '\n' :: b))) = .panic p ↔
      tokenizeAndParse (a ++ '\n' :: (l ++ '\n' :: b)) = .panic p := by
  obtain ⟨tm, h1, h2⟩ := id hm
  have h0 : Plain (stmt tm 0) := h2 _ (by simp [stmt, Stmts.all])
  refine same_panic ha hl h1 h0.ne_nil (fun Q => ⟨_, .plain fun q hq => by
    obtain ⟨q', h5, rfl⟩ := List.mem_map.1 hq
    exact (h2 q' h5).map (f := Token.unplaced) fun _ => rfl⟩) ?_ (C104_lines_iff ha hl hm hy).2 p
  rintro p p' (h | ⟨h4, q, h5, h6⟩)
  · exact h
  · exact (Runs.total (f := Token.unplaced) (fun _ => rfl) (parse_of_tokenizeAndParse h1.1 hy) h2 q h5 p' h6).elim

-- A loop, and the statements `x R` and `GTFO`, are deleted after `VISIBLE AN`, which is in error, in the body of a loop.
example : (∃ ta, LinesOf chars!"IM IN YR l" ta) ∧ OneStatement chars!"VISIBLE AN" ∧
    (∃ y, BodyText chars!"IM IN YR k\nx R 1\nIM OUTTA YR k" y) ∧ SomeStatements chars!"x R\nGTFO" ∧
    (∃ y, tokenizeAndParse (chars!"x R\nGTFO" ++ ['\n']) = .ok (.ok y)) ∧
    ∃ x x', tokenizeAndParse (chars!"IM IN YR l" ++ '\n' :: (chars!"VISIBLE AN" ++ '\n' ::
        (chars!"IM IN YR k\nx R 1\nIM OUTTA YR k" ++ '\n' :: chars!"IM OUTTA YR l"))) = .ok (.ok x) ∧
      tokenizeAndParse (chars!"IM IN YR l" ++ '\n' :: (chars!"VISIBLE AN" ++ '\n' ::
        (chars!"x R\nGTFO" ++ '\n' :: chars!"IM OUTTA YR l"))) = .ok (.ok x') ∧
      (errorsBlock x).length = 1 ∧ (errorsBlock x').length = 2 := by
  refine ⟨⟨_, rfl, by decide +kernel⟩, ⟨_, _, ⟨rfl, by decide +kernel⟩, rfl, _, _, rfl, by decide +kernel⟩,
    ⟨_, _, ⟨rfl, by decide +kernel⟩, by decide +kernel, rfl, by simp [errorFreeBlock, Node.ErrorFree], ?_⟩,
    ⟨_, ⟨rfl, by decide +kernel⟩, ?_⟩, ⟨_, rfl⟩, _, _, rfl, rfl, ?_⟩
  · intro n hn
    cases hn
    exact id
  · intro q hq
    rcases List.mem_cons.1 hq with rfl | hq
    · exact ⟨_, _, rfl, by decide +kernel⟩
    · rcases List.mem_cons.1 hq with rfl | hq
      · exact ⟨_, _, rfl, by decide +kernel⟩
      · cases hq
  · decide +kernel

-- A source that panics at its last line, with and without the loop.
example : (∃ ta, LinesOf chars!"HAI 1.2" ta) ∧ OneStatement chars!"GTFO" ∧
    tokenizeAndParse (chars!"HAI 1.2" ++ '\n' :: (chars!"GTFO" ++ '\n' :: chars!"MAEK x\n")) = .panic .todoMaek ∧
    tokenizeAndParse (chars!"HAI 1.2" ++ '\n' :: (chars!"GTFO" ++ '\n' ::
      (chars!"IM IN YR k\nx R 1\nIM OUTTA YR k" ++ '\n' :: chars!"MAEK x\n"))) = .panic .todoMaek :=
  ⟨⟨_, rfl, by decide +kernel⟩, ⟨_, _, ⟨rfl, by decide +kernel⟩, rfl, _, _, rfl, by decide +kernel⟩, rfl, rfl⟩

end Lol
