import Verif.Parser.SimpleLemmas

/-! # Simple statements are parsed back from their tokens: lemmas -/

namespace Lol

/-- `parseExpr_complete` with declarative hypotheses. -/
theorem parseExpr_complete' {e : Expr} (he : e.WF) {rest : List Token} (hr : e.Follow rest)
    (later : List (List Token)) : ∃ first tail, e.toks = first :: tail ∧
      ∀ n, tail.length + rest.length + 2 ≤ n →
        exec (parseExpr n first) ⟨tail ++ rest, later⟩ = .ok e ⟨rest, later⟩ := by
  obtain ⟨t, ts, ht⟩ := e.toks_ne
  exact ⟨t, ts, ht, fun n hn =>
    parseExpr_complete e rest later n t ts ht ((Expr.G_iff e rest).2 ⟨he, hr⟩) hn⟩

theorem NoSlot.keyword {k : Keyword} {t : Token} (h : t.Is k) {r : List Token} : NoSlot (t :: r) := by
  rw [NoSlot.cons_iff]
  have h : t.tokenType = _ := h
  simp [h]

theorem tryFrom_of {ty : ASTType} (h : ty.token.Is ty.keyword) : ASTType.tryFrom ty.token = some ty := by
  cases ty <;> (simp only [ASTType.token, ASTType.keyword, Token.Is] at h; simp [ASTType.token, ASTType.tryFrom, h])

theorem tryFrom_eq_none {e : Expr} (he : e.WF) (hn : ¬ e.IsNoob) {t : Token} {ts : List Token}
    (ht : e.toks = t :: ts) : ASTType.tryFrom t = none := by
  have he' : e.G [] := (Expr.G_iff e []).2 ⟨he, fun _ => rfl, fun _ => NoSlot.nil⟩
  cases e with
  | value v =>
    cases v with
    | variableAccess v =>
      obtain ⟨⟨n, srs⟩, ss⟩ := v
      obtain ⟨⟨⟨x, h1⟩, h2⟩, -⟩ := he
      cases srs with
      | none =>
        simp [Expr.toks, ExprValue.toks, VariableAccess.toks, Identifier.toks] at ht
        obtain ⟨rfl, -⟩ := ht
        simp only at h1
        simp [ASTType.tryFrom, h1]
      | some s =>
        simp [Expr.toks, ExprValue.toks, VariableAccess.toks, Identifier.toks] at ht
        obtain ⟨rfl, -⟩ := ht
        have : s.tokenType = _ := h2 s rfl
        simp [ASTType.tryFrom, this]
    | literal u =>
      simp [Expr.toks, ExprValue.toks] at ht
      obtain ⟨rfl, -⟩ := ht
      rcases he with ⟨v, h⟩ | h
      · simp [ASTType.tryFrom, h]
      · exact absurd ⟨u, rfl, h⟩ hn
  | unary op e =>
    simp [Expr.toks] at ht
    obtain ⟨rfl, -⟩ := ht
    have h : op.token.tokenType = _ := he.1
    cases op
    simp [ASTType.tryFrom, h, UnaryOpt.keyword]
  | binary op l an r =>
    simp [Expr.toks] at ht
    obtain ⟨rfl, -⟩ := ht
    have h : op.token.tokenType = _ := he.1
    cases op <;> simp [ASTType.tryFrom, h, BinaryOpt.keyword]
  | nary op es mkay =>
    simp [Expr.toks] at ht
    obtain ⟨rfl, -⟩ := ht
    have h : op.token.tokenType = _ := he.1
    cases op <;> simp [ASTType.tryFrom, h, NaryOpt.keyword]

theorem Visible.parseExpressions_complete (es : List Expr) (rest : List Token) (later : List (List Token))
    (h : FollowAll es rest) (hr : ∀ t r, rest = t :: r → t.tokenType = .exclamationMark) (n m : Nat)
    (hn : (es.flatMap Expr.toks).length + rest.length + 1 ≤ n)
    (hm : (es.flatMap Expr.toks).length + rest.length < m) :
    exec (Visible.parseExpressions n m) ⟨es.flatMap Expr.toks ++ rest, later⟩ = .ok es ⟨rest, later⟩ := by
  induction es generalizing m with
  | nil =>
    cases m with
    | zero => omega
    | succ m =>
      cases rest with
      | nil => simp [Visible.parseExpressions]
      | cons t r => simp [Visible.parseExpressions, hr t r rfl]
  | cons e es ih =>
    cases m with
    | zero => omega
    | succ m =>
      obtain ⟨h1, h2, h3⟩ := h
      obtain ⟨t, ts, h4, h5⟩ := parseExpr_complete' h1 h2 later
      have hne := (Expr.G_first ((Expr.G_iff e _).2 ⟨h1, h2⟩) h4).2.2.2
      simp only [List.flatMap_cons, h4, List.cons_append, List.length_cons, List.length_append] at hn hm ⊢
      have h6 := h5 n (by simp only [List.length_append]; omega)
      have ih := ih h3 m (by omega) (by omega)
      simp only [Visible.parseExpressions, exec_bind, exec_nextIfTokenTypeNe_cons, hne, if_false,
        Res.andThen_ok, List.append_assoc, h6, ih, exec_pure]

theorem isKeyword_true {k : Keyword} {t : Token} (h : t.Is k) : t.isKeyword k = true := Token.isKeyword_iff.2 h

theorem isKeyword_false {k k' : Keyword} {t : Token} (h : t.Is k) (hn : k ≠ k') : t.isKeyword k' = false := by
  have h : t.tokenType = _ := h
  simp [Token.isKeyword, h, hn]

theorem IIz.parseArguments_complete {mkay : Token} {rest ts : List Token} {es : List Expr}
    (h : ArgsG (mkay :: rest) ts es) (hk : mkay.Is .MKAY) (later : List (List Token)) (n m : Nat)
    (hn : ts.length + rest.length + 2 ≤ n) (hm : ts.length < m) :
    exec (IIz.parseArguments n m) ⟨ts ++ mkay :: rest, later⟩ = .ok es ⟨mkay :: rest, later⟩ := by
  induction h generalizing m with
  | nil =>
    cases m with
    | zero => simp at hm
    | succ m => simp [IIz.parseArguments, isKeyword_false hk]
  | @one yr e h1 h2 h3 =>
    cases m with
    | zero => simp at hm
    | succ m =>
      obtain ⟨t, ts, h4, h5⟩ := parseExpr_complete' h2 h3 later
      simp only [h4, List.cons_append, List.length_cons] at hn hm ⊢
      have h6 := h5 n (by simp only [List.length_cons]; omega)
      simp only [IIz.parseArguments, exec_bind, exec_nextIf_cons, isKeyword_true h1, if_true,
        Res.andThen_ok, exec_next_cons, h6, isKeyword_false hk (by decide : Keyword.MKAY ≠ .AN)]
      simp
  | @cons yr e an ts es h1 h2 h3 h4 h5 ih =>
    cases m with
    | zero => simp at hm
    | succ m =>
      obtain ⟨u, us, h6, h7⟩ := parseExpr_complete' h2 (rest := an :: (ts ++ mkay :: rest))
        ⟨fun h => absurd h h3, fun _ => NoSlot.keyword h4⟩ later
      simp only [h6, List.cons_append, List.length_cons, List.length_append] at hn hm ⊢
      have h8 := h7 n (by simp only [List.length_cons, List.length_append]; omega)
      have ih := ih m (by omega) (by omega)
      simp only [IIz.parseArguments, exec_bind, exec_nextIf_cons, isKeyword_true h1, if_true,
        Res.andThen_ok, exec_next_cons, List.append_assoc, List.cons_append, h8, isKeyword_true h4, ih,
        exec_pure]

theorem SimpleG.complete {rest ts : List Token} {node : Node} (h : SimpleG rest ts node)
    (later : List (List Token)) : ∃ first tail, ts = first :: tail ∧ ∀ block n,
      tail.length + rest.length + 2 ≤ n →
        exec (parseStatement block n first) ⟨tail ++ rest, later⟩ = .ok node ⟨rest, later⟩ := by
  have notValid : ∀ {t : Token} {k : Keyword}, t.Is k → k ≠ .SRS → VariableAccess.isValid t = false := by
    intro t k h hs
    have h : t.tokenType = _ := h
    unfold VariableAccess.isValid
    rw [h]
    split <;> simp_all
  cases h with
  | @declaration t i h1 h2 h3 =>
    subst h3
    refine ⟨t, _, rfl, fun block n hn => ?_⟩
    obtain ⟨u, us, h4, -, h5, h6⟩ := Identifier.parse_complete i h2 [] later
    simp only [parseStatement, notValid h1 (by decide), Bool.false_eq_true, if_false]
    rw [show t.tokenType = _ from h1]
    simp only [h4, List.cons_append, IHasA.parse, exec_bind, exec_next_cons, Res.andThen_ok, h5, if_true, h6,
      exec_next_nil, exec_pure]
  | @declarationType t i itz ty h1 h2 h3 h4 =>
    refine ⟨t, _, rfl, fun block n hn => ?_⟩
    obtain ⟨u, us, h5, -, h6, h7⟩ := Identifier.parse_complete i h2 (itz :: ty.token :: rest) later
    simp only [parseStatement, notValid h1 (by decide), Bool.false_eq_true, if_false]
    rw [show t.tokenType = _ from h1]
    simp only [h5, List.cons_append, IHasA.parse, exec_bind, exec_next_cons, Res.andThen_ok, h6, if_true,
      List.append_assoc, List.nil_append, h7, isKeyword_true h3, tryFrom_of h4, exec_pure]
  | @declarationExpr t i itz e h1 h2 h3 h4 h5 h6 =>
    refine ⟨t, _, rfl, fun block n hn => ?_⟩
    obtain ⟨w, ws, h7, h8⟩ := parseExpr_complete' h4 h5 later
    have h9 := tryFrom_eq_none h4 h6 h7
    obtain ⟨u, us, h10, -, h11, h12⟩ := Identifier.parse_complete i h2 (itz :: w :: (ws ++ rest)) later
    have h8 := h8 n (by simp [h7, h10] at hn; omega)
    simp only [parseStatement, notValid h1 (by decide), Bool.false_eq_true, if_false]
    rw [show t.tokenType = _ from h1]
    simp only [h10, h7, List.cons_append, IHasA.parse, exec_bind, exec_next_cons, Res.andThen_ok, h11, if_true,
      List.append_assoc, h12, isKeyword_true h3, h9, h8, exec_pure]
  | @assignment v r e h1 h2 h3 h4 =>
    obtain ⟨w, ws, h5, h6⟩ := parseExpr_complete' h3 h4 later
    obtain ⟨u, us, h7, h8, h9⟩ := VariableAccess.parse_complete v h1 (r :: w :: (ws ++ rest))
      (NoSlot.keyword h2) later
    refine ⟨u, us ++ r :: w :: ws, by simp [h7, h5], fun block n hn => ?_⟩
    simp only [List.length_append, List.length_cons] at hn
    have h6 := h6 n (by omega)
    have h9 := h9 n (by omega)
    simp only [parseStatement, h8, if_true, parseAccessStatement, exec_bind, List.append_assoc, List.cons_append,
      h9, Res.andThen_ok, exec_peek_cons]
    rw [show r.tokenType = _ from h2]
    simp only [VariableAssignment.parse, exec_bind, exec_next_cons, Res.andThen_ok, isKeyword_true h2, if_true,
      h6, exec_pure]
  | @setSlot v r i itz e h1 h2 h3 h4 h5 h6 =>
    obtain ⟨w, ws, h7, h8⟩ := parseExpr_complete' h5 h6 later
    obtain ⟨x, xs, h9, -, -, h10⟩ := Identifier.parse_complete i h3 (itz :: w :: (ws ++ rest)) later
    obtain ⟨u, us, h11, h12, h13⟩ := VariableAccess.parse_complete v h1
      (r :: x :: (xs ++ (itz :: w :: (ws ++ rest)))) (NoSlot.keyword h2) later
    refine ⟨u, us ++ r :: x :: (xs ++ itz :: w :: ws), by simp [h7, h9, h11], fun block n hn => ?_⟩
    simp only [List.length_append, List.length_cons] at hn
    have h8 := h8 n (by omega)
    have h13 := h13 n (by omega)
    simp only [parseStatement, h12, if_true, parseAccessStatement, exec_bind, List.append_assoc, List.cons_append,
      h13, Res.andThen_ok, exec_peek_cons]
    rw [show r.tokenType = _ from h2]
    simp only [BukkitSetSlot.parse, exec_bind, exec_next_cons, Res.andThen_ok, isKeyword_true h2, if_true,
      h10, isKeyword_true h4, h8, exec_pure]
  | @access v h1 h2 =>
    subst h2
    obtain ⟨u, us, h11, h12, h13⟩ := VariableAccess.parse_complete v h1 [] NoSlot.nil later
    refine ⟨u, us, h11, fun block n hn => ?_⟩
    have h13 := h13 n (by omega)
    simp only [parseStatement, h12, if_true, parseAccessStatement, exec_bind, h13, Res.andThen_ok, exec_peek_nil,
      exec_pure]
  | @expression e h1 h2 h3 =>
    obtain ⟨t, ts', h7, h8⟩ := parseExpr_complete' h1 h2 later
    refine ⟨t, ts', h7, fun block n hn => ?_⟩
    have h8 := h8 n hn
    have key : parseStatement block n t = (do let e ← parseExpr n t; pure (.expression e)) := by
      cases e with
      | value v =>
        cases v with
        | variableAccess v => exact absurd rfl (h3 v)
        | literal u =>
          simp [Expr.toks, ExprValue.toks] at h7
          obtain ⟨rfl, -⟩ := h7
          rcases h1 with ⟨v, h⟩ | h
          · simp [parseStatement, VariableAccess.isValid, h]
          · have h : u.tokenType = _ := h
            simp [parseStatement, VariableAccess.isValid, h]
      | unary op e =>
        simp [Expr.toks] at h7
        obtain ⟨rfl, -⟩ := h7
        have h : op.token.tokenType = _ := h1.1
        cases op
        simp only [UnaryOpt.keyword, UnaryOpt.token] at h
        simp [parseStatement, VariableAccess.isValid, h, UnaryOpt.token]
      | binary op l an r =>
        simp [Expr.toks] at h7
        obtain ⟨rfl, -⟩ := h7
        have h : op.token.tokenType = _ := h1.1
        cases op <;> (simp only [BinaryOpt.keyword, BinaryOpt.token] at h
                      simp [parseStatement, VariableAccess.isValid, h, BinaryOpt.token])
      | nary op es mkay =>
        simp [Expr.toks] at h7
        obtain ⟨rfl, -⟩ := h7
        have h : op.token.tokenType = _ := h1.1
        cases op <;> (simp only [NaryOpt.keyword, NaryOpt.token] at h
                      simp [parseStatement, VariableAccess.isValid, h, NaryOpt.token])
    rw [key]
    simp only [exec_bind, h8, Res.andThen_ok, exec_pure]
  | @visible t es ex h1 h2 h3 h4 =>
    refine ⟨t, _, rfl, fun block n hn => ?_⟩
    have h5 := Visible.parseExpressions_complete es (ex.toList ++ rest) later h2
      (by
        intro u r hr
        cases ex with
        | none => rw [h4 rfl] at hr; cases hr
        | some x => simp at hr; exact hr.1 ▸ h3 x rfl) n n
      (by simp only [List.length_append] at hn ⊢; omega) (by simp only [List.length_append] at hn ⊢; omega)
    have h6 : exec (nextIfTokenTypeEq .exclamationMark) ⟨ex.toList ++ rest, later⟩ = .ok ex ⟨rest, later⟩ := by
      apply exec_nextIfEq_toList h3
      intro h t r hr
      rw [h4 h] at hr
      cases hr
    simp only [parseStatement, notValid h1 (by decide), Bool.false_eq_true, if_false]
    rw [show t.tokenType = _ from h1]
    simp only [Visible.parse, exec_bind, List.append_assoc, h5, Res.andThen_ok, h6, exec_pure]
  | @gimmeh t v h1 h2 h3 =>
    refine ⟨t, _, rfl, fun block n hn => ?_⟩
    obtain ⟨u, us, h11, h12, h13⟩ := VariableAccess.parse_complete v h2 rest h3 later
    rw [h11, List.length_cons] at hn
    have h13 := h13 n (by omega)
    simp only [parseStatement, notValid h1 (by decide), Bool.false_eq_true, if_false]
    rw [show t.tokenType = _ from h1]
    simp only [h11, List.cons_append, Gimmeh.parse, exec_bind, exec_next_cons, Res.andThen_ok, h13, exec_pure]
  | @foundYr t e h1 h2 h3 =>
    refine ⟨t, _, rfl, fun block n hn => ?_⟩
    obtain ⟨u, us, h11, h13⟩ := parseExpr_complete' h2 h3 later
    rw [h11, List.length_cons] at hn
    have h13 := h13 n (by omega)
    simp only [parseStatement, notValid h1 (by decide), Bool.false_eq_true, if_false]
    rw [show t.tokenType = _ from h1]
    simp only [h11, List.cons_append, FoundYr.parse, exec_bind, exec_next_cons, Res.andThen_ok, h13, exec_pure]
  | @call t v ts' es mkay h1 h2 h3 h4 =>
    refine ⟨t, _, rfl, fun block n hn => ?_⟩
    have hns : NoSlot (ts' ++ mkay :: rest) := by
      cases h3 with
      | nil => exact NoSlot.keyword h4
      | one h => exact NoSlot.keyword h
      | cons h => exact NoSlot.keyword h
    obtain ⟨u, us, h11, h12, h13⟩ := VariableAccess.parse_complete v h2 (ts' ++ mkay :: rest) hns later
    simp only [h11, List.length_append, List.length_cons, List.length_nil] at hn
    have h13 := h13 n (by omega)
    have h5 := IIz.parseArguments_complete h3 h4 later n n (by omega) (by omega)
    simp only [parseStatement, notValid h1 (by decide), Bool.false_eq_true, if_false]
    rw [show t.tokenType = _ from h1]
    simp only [h11, List.cons_append, IIz.parse, exec_bind, exec_next_cons, Res.andThen_ok, List.append_assoc,
      List.nil_append, h13, h5, isKeyword_true h4, if_true, exec_pure]
  | @gtfo t h1 =>
    refine ⟨t, [], rfl, fun block n hn => ?_⟩
    simp only [parseStatement, notValid h1 (by decide), Bool.false_eq_true, if_false]
    rw [show t.tokenType = _ from h1]
    rfl
  | @kThxBye t h1 =>
    refine ⟨t, [], rfl, fun block n hn => ?_⟩
    simp only [parseStatement, notValid h1 (by decide), Bool.false_eq_true, if_false]
    rw [show t.tokenType = _ from h1]
    rfl

theorem parseConditional_complete {ts : List Token} {c : Option LoopCondition} (h : ConditionG ts c)
    (later : List (List Token)) (n : Nat) (hn : ts.length + 1 ≤ n) :
    exec (parseConditional n) ⟨ts, later⟩ = .ok c ⟨[], later⟩ := by
  cases h with
  | none => simp [parseConditional]
  | @til t e h1 h2 =>
    obtain ⟨u, us, h3, h4⟩ := parseExpr_complete' h2 (rest := []) ⟨fun _ => rfl, fun _ => NoSlot.nil⟩ later
    rw [h3] at hn ⊢
    simp only [List.length_cons] at hn
    have h4 := h4 n (by simp; omega)
    simp only [List.append_nil] at h4
    simp only [parseConditional, exec_bind, exec_nextIf_cons, isKeyword_true h1, Bool.true_or, if_true,
      Res.andThen_ok, exec_next_cons, h4, exec_pure]
  | @wile t e h1 h2 =>
    obtain ⟨u, us, h3, h4⟩ := parseExpr_complete' h2 (rest := []) ⟨fun _ => rfl, fun _ => NoSlot.nil⟩ later
    rw [h3] at hn ⊢
    simp only [List.length_cons] at hn
    have h4 := h4 n (by simp; omega)
    simp only [List.append_nil] at h4
    simp only [parseConditional, exec_bind, exec_nextIf_cons, isKeyword_true h1, Bool.or_true, if_true,
      Res.andThen_ok, exec_next_cons, h4, isKeyword_false h1 (by decide : Keyword.WILE ≠ .TIL)]
    rfl

theorem parseIterationOperation_complete {ts : List Token} {c : Option LoopIterationOperation}
    (h : IterationG ts c) {rest : List Token} (hr : NoSlot rest)
    (hr' : ∀ t r, rest = t :: r → t.isKeyword .UPPIN = false ∧ t.isKeyword .NERFIN = false)
    (later : List (List Token)) (n : Nat) (hn : ts.length + 1 ≤ n) :
    exec (parseIterationOperation n) ⟨ts ++ rest, later⟩ = .ok c ⟨rest, later⟩ := by
  cases h with
  | none =>
    cases rest with
    | nil => simp [parseIterationOperation]
    | cons t r => simp [parseIterationOperation, hr' t r rfl]
  | @some op yr v h1 h2 h3 =>
    obtain ⟨u, us, h11, h12, h13⟩ := VariableAccess.parse_complete v h3 rest hr later
    rw [h11] at hn ⊢
    simp only [List.length_cons] at hn
    have h13 := h13 n (by omega)
    cases op with
    | uppin t =>
      have h1 : t.Is .UPPIN := h1
      simp only [LoopOperation.token, parseIterationOperation, List.cons_append, exec_bind, exec_nextIf_cons,
        isKeyword_true h1, Bool.true_or, if_true, Res.andThen_ok, exec_next_cons, isKeyword_true h2, h13, exec_pure]
    | nerfin t =>
      have h1 : t.Is .NERFIN := h1
      simp only [LoopOperation.token, parseIterationOperation, List.cons_append, exec_bind, exec_nextIf_cons,
        isKeyword_true h1, Bool.or_true, if_true, Res.andThen_ok, exec_next_cons, isKeyword_true h2, h13,
        isKeyword_false h1 (by decide : Keyword.NERFIN ≠ .UPPIN), exec_pure]
      rfl

theorem parseParameters_complete {ts : List Token} {is : List Identifier} (h : ParamsG ts is)
    (later : List (List Token)) (m : Nat) (hm : ts.length < m) :
    exec (parseParameters m) ⟨ts, later⟩ = .ok is ⟨[], later⟩ := by
  induction h generalizing m with
  | nil =>
    cases m with
    | zero => simp at hm
    | succ m => simp [parseParameters]
  | @one yr i h1 h2 =>
    cases m with
    | zero => simp at hm
    | succ m =>
      obtain ⟨u, us, h4, -, h5, h6⟩ := Identifier.parse_complete i h2 [] later
      rw [List.append_nil] at h6
      rw [h4]
      simp only [parseParameters, exec_bind, exec_nextIf_cons, isKeyword_true h1, if_true, Res.andThen_ok,
        exec_next_cons, h6, exec_peek_nil, exec_pure]
  | @cons yr i an ts is h1 h2 h3 h4 ih =>
    cases m with
    | zero => simp at hm
    | succ m =>
      obtain ⟨u, us, h5, -, h6, h7⟩ := Identifier.parse_complete i h2 (an :: ts) later
      rw [h5] at hm ⊢
      simp only [List.length_cons, List.length_append] at hm
      have ih := ih m (by omega)
      simp only [parseParameters, List.cons_append, exec_bind, exec_nextIf_cons, isKeyword_true h1, if_true,
        Res.andThen_ok, exec_next_cons, h7, exec_peek_cons, isKeyword_true h3, ih, exec_pure]

end Lol
