import Verif.Parser.ShapeLemmas
import Verif.Props.WrapErrors

/-! # Programs with errors of their own as the branches of a conditional (C108) -/

namespace Lol

/-! ## Lemmas -/

theorem Expr.open_map (f : Token → Token) : (e : Expr) → ((e.map f).Open ↔ e.Open)
  | .value _ => by simp [Expr.map, Expr.Open]
  | .unary _ e => by simpa [Expr.map, Expr.Open] using e.open_map f
  | .binary _ _ _ r => by simpa [Expr.map, Expr.Open] using r.open_map f
  | .nary _ _ mkay => by simp [Expr.map, Expr.Open]

theorem Identifier.WF.bare {i : Identifier} (h : i.WF) : (i.map Token.unplaced).WF := by
  refine ⟨h.1, fun t ht => ?_⟩
  obtain ⟨t0, e1, rfl⟩ := Option.map_eq_some_iff.1 ht
  exact h.2 t0 e1

theorem VariableAccess.WF.bare {v : VariableAccess} (h : v.WF) : (v.map Token.unplaced).WF := by
  refine ⟨h.1.bare, fun s hs => ?_⟩
  obtain ⟨s0, h1, rfl⟩ := List.mem_map.1 hs
  exact ⟨(h.2 s0 h1).1, (h.2 s0 h1).2.bare⟩

mutual

theorem Expr.WF.bare : (e : Expr) → e.WF → (e.map Token.unplaced).WF
  | .value (.variableAccess v), h => VariableAccess.WF.bare (v := v) h
  | .value (.literal _), h => h
  | .unary o e, h => by
    refine ⟨?_, Expr.WF.bare e h.2⟩
    have := h.1
    cases o
    exact this
  | .binary o l an r, h => by
    obtain ⟨h1, h2, h3, h4, h5⟩ := h
    refine ⟨?_, Expr.WF.bare l h2, by rwa [Expr.open_map], ?_, Expr.WF.bare r h5⟩
    · cases o <;> exact h1
    · intro t ht
      obtain ⟨t0, e1, rfl⟩ := Option.map_eq_some_iff.1 ht
      exact h4 t0 e1
  | .nary o es mkay, h => by
    obtain ⟨h1, h2, h3⟩ := h
    refine ⟨by cases o <;> exact h1, ?_, ?_⟩
    · rw [Option.isSome_map]
      exact wfOperands_bare es _ h2
    · intro t ht
      obtain ⟨t0, e1, rfl⟩ := Option.map_eq_some_iff.1 ht
      exact h3 t0 e1

theorem wfOperands_bare : (es : List Operand) → (c : Bool) → wfOperands es c →
    wfOperands (mapOperands Token.unplaced es) c
  | [], _, _ => trivial
  | .mk e an :: es, c, h => by
    obtain ⟨h1, h2, h3, h4⟩ := h
    refine ⟨Expr.WF.bare e h1, ?_, ?_, wfOperands_bare es c h4⟩
    · intro t ht
      obtain ⟨t0, e1, rfl⟩ := Option.map_eq_some_iff.1 ht
      exact h2 t0 e1
    · intro ho
      obtain ⟨rfl, rfl, rfl⟩ := h3 ((Expr.open_map _ _).1 ho)
      exact ⟨rfl, rfl, rfl⟩

end

/-- A line `MEBBE` with a condition, and the lines of its branch. -/
inductive MebbeText : Str → Str → Mebbe → Prop
  | mk {h m : Str} {t : Token} {e : Expr} {y : Block} : StatementText h (t :: e.toks) → t.Is .MEBBE → e.WF →
      SelfContained m y → MebbeText h m (.mk t e y)

theorem mebbes_body {bs : List (Str × Str × Mebbe)} (hb : ∀ b ∈ bs, MebbeText b.1 b.2.1 b.2.2) {post : Str} {c : Token}
    (hpost : StatementText post [c]) (hc : c.Is .OIC) :
    ∃ u c' r L, LinesOf (bs.foldr (fun b s => b.1 ++ '\n' :: (b.2.1 ++ '\n' :: s)) post) u ∧ stmt u 0 ≠ [] ∧
      bareStmts (split u).all = (c' :: r) :: L ∧ (∃ k ∈ closeIf, c'.Is k) ∧
      ∀ E, MebbesR ⟨c' :: r, L ++ E⟩ (.ok (mapMebbes Token.unplaced (bs.map (·.2.2))) ⟨[c.unplaced], E⟩) := by
  induction bs with
  | nil =>
    obtain ⟨tq, q1, q2⟩ := hpost
    refine ⟨tq, c.unplaced, [], [], q1, by rw [stmt_zero q2]; simp, by rw [q2]; rfl, ⟨.OIC, by decide, hc⟩, fun E => ?_⟩
    refine .nil ?_
    intro t r e h
    cases e
    have h1 : c.tokenType = .keyword .MEBBE := h
    have h2 : c.tokenType = .keyword .OIC := hc
    rw [h1] at h2
    cases h2
  | cons b bs ih =>
    obtain ⟨u, c', r, L, i1, i2, i3, i4, i5⟩ := ih fun b h => hb b (List.mem_cons_of_mem _ h)
    obtain ⟨h, m, w⟩ := b
    cases hb _ List.mem_cons_self with
    | mk h1 h2 h3 h4 =>
      rename_i t e y
      obtain ⟨th, g1, g2⟩ := h1
      obtain ⟨tm, m1, m2, m3⟩ := h4.body
      obtain ⟨v, j1, j2, j3⟩ := m1.join_stmts m2 i1 i2
      obtain ⟨w, k1, k2, k3⟩ := g1.join_stmts (by rw [stmt_zero g2]; simp) j1 j2
      refine ⟨w, t.unplaced, (e.map Token.unplaced).toks, bareStmts (split tm).all ++ (c' :: r) :: L, k1, k2, ?_,
        ⟨.MEBBE, by decide, h2⟩, fun E => ?_⟩
      · rw [k3, j3, i3, g2, Expr.toks_map]
        rfl
      · have := MebbesR.cons (t := t.unplaced) h2 (Expr.WF.bare e h3) (m3 closeIf close_if c' r (L ++ E) i4) (i5 E)
        simpa [Read.map, Stmts.of, mapMebbes] using this

/-! ## C108 -/

/-- **C108** Programs with errors of their own are the branches of a conditional with any number of `MEBBE`, errors
included, and the conditional can itself be inserted and deleted as in C106. -/
theorem C108_branches {pre m post : Str} {tp : List Token} {y : Block} {t q t' c : Token}
    {bs : List (Str × Str × Mebbe)} (hpre : LinesOf pre tp) (htp : (split tp).all = [[t, q], [t']]) (ht : t.Is .O_RLY)
    (hq : q.IsQuestion) (ht' : t'.Is .YA_RLY) (hm : SelfContained m y)
    (hb : ∀ b ∈ bs, MebbeText b.1 b.2.1 b.2.2) (hpost : StatementText post [c]) (hc : c.Is .OIC) :
    ∃ n, SelfContained
        (pre ++ '\n' :: (m ++ '\n' :: bs.foldr (fun b s => b.1 ++ '\n' :: (b.2.1 ++ '\n' :: s)) post)) [n] ∧
      n.map Token.unplaced = (Node.oRly t (some (.mk t' y)) none (bs.map (·.2.2))).map Token.unplaced := by
  obtain ⟨u, c', r, L, i1, i2, i3, i4, i5⟩ := mebbes_body hb hpost hc
  obtain ⟨tm, m1, m2, m3⟩ := hm.body
  obtain ⟨v, k1, k2, k3⟩ := m1.join_stmts m2 i1 i2
  obtain ⟨w, l1, l2, l3⟩ := hpre.join_stmts (by rw [stmt_zero htp]; simp) k1 k2
  refine SelfContained.of_step l1 l2 (by simp [Node.map]) fun E => ?_
  have hbd := m3 closeIf close_if c' r (L ++ E) i4
  have hno : NotFirst .NO_WAI [c.unplaced] := by
    intro t r e h
    cases e
    have h1 : c.tokenType = .keyword .NO_WAI := h
    have h2 : c.tokenType = .keyword .OIC := hc
    rw [h1] at h2
    cases h2
  rw [l3, k3, i3, htp]
  have hy : YaRlyR (.of ([t'.unplaced] :: (bareStmts (split tm).all ++ (c' :: r) :: (L ++ E))))
    (.ok (some (.mk t'.unplaced (mapBlock Token.unplaced y))) ⟨c' :: r, L ++ E⟩) := .some (t := t'.unplaced) ht' hbd
  have := StepR.ok (NodeR.conditional (t := t.unplaced) (.conditional (q := q.unplaced) ht hq) hy
    (i5 E) (.none hno) hc)
  simpa [bareStmts, Stmts.of, leftoverNodes, Node.map, mapYaRly, mapNoWai] using this

/-- **C108** The errors of the conditional are those of the programs, branch by branch. -/
theorem C108_errors {pre m post : Str} {tp : List Token} {y x : Block} {t q t' c : Token}
    {bs : List (Str × Str × Mebbe)} (hpre : LinesOf pre tp) (htp : (split tp).all = [[t, q], [t']]) (ht : t.Is .O_RLY)
    (hq : q.IsQuestion) (ht' : t'.Is .YA_RLY) (hm : SelfContained m y)
    (hb : ∀ b ∈ bs, MebbeText b.1 b.2.1 b.2.2) (hpost : StatementText post [c]) (hc : c.Is .OIC)
    (h : tokenizeAndParse ((pre ++ '\n' :: (m ++ '\n' ::
      bs.foldr (fun b s => b.1 ++ '\n' :: (b.2.1 ++ '\n' :: s)) post)) ++ ['\n']) = .ok (.ok x)) :
    (errorsBlock x).map (ASTError.map Token.unplaced) =
      (errorsBlock y ++ bs.flatMap fun b => errorsBlock b.2.2.block).map (ASTError.map Token.unplaced) := by
  obtain ⟨n, h1, h2⟩ := C108_branches hpre htp ht hq ht' hm hb hpost hc
  have := h1.tree.symm.trans h
  cases this
  have e : ∀ bs : List (Str × Str × Mebbe), errorsMebbes (bs.map (·.2.2)) =
      bs.flatMap fun b => errorsBlock b.2.2.block := by
    intro bs
    induction bs with
    | nil => rfl
    | cons b bs ih =>
      obtain ⟨_, _, ⟨t, e, y⟩⟩ := b
      simp [errorsMebbes, ih, Mebbe.block]
  rw [← errorsBlock_map]
  simp only [mapBlock, h2]
  rw [show [Node.map Token.unplaced (.oRly t (some (.mk t' y)) none (bs.map (·.2.2)))] =
    mapBlock Token.unplaced [.oRly t (some (.mk t' y)) none (bs.map (·.2.2))] from rfl, errorsBlock_map]
  simp [errorsBlock, Node.errors, errorsYaRly, errorsNoWai, e]

/-- **C108** In a source with errors, after a statement, the conditional stands for its first program: the source has a
tree just when it has one with the program alone, and panics just when it does so with the program alone. -/
theorem C108_into {a l pre m post b : Str} {ta tp : List Token} (ha : LinesOf a ta) (hl : OneStatement l)
    {y : Block} {t q t' c : Token} {bs : List (Str × Str × Mebbe)} (hpre : LinesOf pre tp)
    (htp : (split tp).all = [[t, q], [t']]) (ht : t.Is .O_RLY) (hq : q.IsQuestion) (ht' : t'.Is .YA_RLY)
    (hm : SelfContained m y) (hb : ∀ b ∈ bs, MebbeText b.1 b.2.1 b.2.2) (hpost : StatementText post [c])
    (hc : c.Is .OIC) {w : Str}
    (hw : w = pre ++ '\n' :: (m ++ '\n' :: bs.foldr (fun b s => b.1 ++ '\n' :: (b.2.1 ++ '\n' :: s)) post)) :
    ((∃ x, tokenizeAndParse (a ++ '\n' :: (l ++ '\n' :: (m ++ '\n' :: b))) = .ok (.ok x)) ↔
      ∃ x, tokenizeAndParse (a ++ '\n' :: (l ++ '\n' :: (w ++ '\n' :: b))) = .ok (.ok x)) ∧
    ∀ p, tokenizeAndParse (a ++ '\n' :: (l ++ '\n' :: (m ++ '\n' :: b))) = .panic p ↔
      tokenizeAndParse (a ++ '\n' :: (l ++ '\n' :: (w ++ '\n' :: b))) = .panic p := by
  subst hw
  obtain ⟨n, h1, -⟩ := C108_branches hpre htp ht hq ht' hm hb hpost hc
  exact C106_exchange ha hl hm h1

-- A branch after `MEBBE x` with `x R`, which is in error, and `GTFO`.
example : ∃ w : Mebbe, MebbeText chars!"MEBBE x" chars!"x R\nGTFO" w ∧ (errorsBlock w.block).length = 1 := by
  obtain ⟨y, h1, h2⟩ : ∃ y, tokenizeAndParse (chars!"x R\nGTFO" ++ ['\n']) = .ok (.ok y) ∧
    (errorsBlock y).length = 1 := ⟨_, rfl, by decide +kernel⟩
  obtain ⟨t, u, h3, h4, h5, h6⟩ : ∃ t u : Token, LinesOf chars!"MEBBE x" [t, u] ∧ (split [t, u]).all = [[t, u]] ∧
    t.Is .MEBBE ∧ u.IsIdent := ⟨_, _, ⟨rfl, by decide +kernel⟩, rfl, rfl, _, rfl⟩
  refine ⟨.mk t (.value (.variableAccess ⟨⟨u, none⟩, []⟩)) y, .mk ⟨_, h3, h4⟩ h5 ⟨⟨h6, by simp⟩, by simp⟩ ?_, h2⟩
  refine C106_of_statements ⟨_, ⟨rfl, by decide +kernel⟩, ?_⟩ h1
  intro q hq
  rcases List.mem_cons.1 hq with rfl | hq
  · exact ⟨_, _, rfl, by decide +kernel⟩
  · rcases List.mem_cons.1 hq with rfl | hq
    · exact ⟨_, _, rfl, by decide +kernel⟩
    · cases hq

end Lol
