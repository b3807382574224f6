import Verif.Parser.ExprComplete
import Verif.Parser.Stmt

/-! # Simple statements: what the parsers do -/

namespace Lol

theorem Token.isKeyword_iff {k : Keyword} {t : Token} : t.isKeyword k = true ↔ t.Is k := by
  simp [Token.isKeyword, Token.Is]

theorem isValid_iff {t : Token} : VariableAccess.isValid t = true ↔ t.IsIdent ∨ t.Is .SRS := by
  unfold VariableAccess.isValid Token.IsIdent Token.Is
  split <;> simp_all

/-- `parseExpr_post` with the declarative conclusion. -/
theorem parseExpr_post' (n : Nat) (first : Token) (pre cur : List Token) (later : List (List Token))
    (hf : first ∈ pre) : EPost pre cur later (cur.length + 2 ≤ n)
      (fun e used cur' => first :: used = e.toks ∧ e.WF ∧ e.Follow cur')
      (exec (parseExpr n first) ⟨cur, later⟩) :=
  (parseExpr_post n first pre cur later hf).mono (fun _ h => h) (fun h => h)
    fun e _ cur' _ h => ⟨h.1, (Expr.G_iff e cur').1 h.2⟩

theorem tryFrom_some {t : Token} {ty : ASTType} (h : ASTType.tryFrom t = some ty) :
    ty.token = t ∧ t.Is ty.keyword := by
  unfold ASTType.tryFrom at h
  split at h <;> first | (cases h; done) | skip
  all_goals
    rename_i h'
    cases h
    exact ⟨rfl, h'⟩

theorem tryFrom_none {e : Expr} (he : e.WF) {t : Token} {ts : List Token} (ht : e.toks = t :: ts)
    (h : ASTType.tryFrom t = none) : ¬ e.IsNoob := by
  rintro ⟨u, rfl, hu⟩
  simp only [Expr.toks, ExprValue.toks, List.cons.injEq] at ht
  obtain ⟨rfl, -⟩ := ht
  have hu : u.tokenType = _ := hu
  simp [ASTType.tryFrom, hu] at h

/-- The statement parser `p`, called after `first`, gives a simple statement. -/
def SimplePost (n : Nat) (first : Token) (pre cur : List Token) (later : List (List Token))
    (f : α → Node) : Res Stmts α → Prop :=
  EPost pre cur later (cur.length + 2 ≤ n) (fun a used cur' => SimpleG cur' (first :: used) (f a))

theorem IHasA.parse_post (n : Nat) (first : Token) (pre cur : List Token) (later : List (List Token))
    (hf : first ∈ pre) (hk : first.Is .I_HAS_A) :
    SimplePost n first pre cur later .iHasA (exec (IHasA.parse n first) ⟨cur, later⟩) := by
  unfold IHasA.parse
  refine .bind .next ?_
  rintro o used cur' - (⟨rfl, rfl, -, rfl⟩ | ⟨t, rfl, rfl, rfl⟩)
  · exact .fail rfl (by simp [hf]) (by simp)
  · dsimp only
    split
    · refine .bind (Identifier.parse_post _ _ _ _ t (by simp)) ?_
      rintro i used cur' rfl ⟨h1, h2⟩
      refine .bind .next ?_
      rintro o used' cur' - (⟨rfl, rfl, rfl, rfl⟩ | ⟨u, rfl, rfl, rfl⟩)
      · refine .pure ?_
        have := SimpleG.declaration (rest := []) hk h2 rfl
        rw [← h1] at this
        simpa using this
      · dsimp only
        split
        · rename_i hu
          rw [Token.isKeyword_iff] at hu
          refine .bind .next ?_
          rintro o used' cur' - (⟨rfl, rfl, rfl, rfl⟩ | ⟨w, rfl, rfl, rfl⟩)
          · exact .fail rfl (by simp) (by simp)
          · dsimp only
            split
            · rename_i ty hty
              obtain ⟨rfl, h3⟩ := tryFrom_some hty
              refine .pure ?_
              have := SimpleG.declarationType (rest := cur') hk h2 hu h3
              rw [← h1] at this
              simpa using this
            · rename_i hty
              refine .bind ((parseExpr_post' n w _ cur' later (by simp)).mono (fun _ h => h)
                (by simp <;> omega) fun _ _ _ _ h => h) ?_
              rintro e used' cur' rfl ⟨h3, h4, h5⟩
              refine .pure ?_
              have := SimpleG.declarationExpr (rest := cur') hk h2 hu h4 h5 (tryFrom_none h4 h3.symm hty)
              rw [← h1, ← h3] at this
              simpa using this
        · exact .fail rfl (by simp) (by simp)
    · exact .fail rfl (by simp) (by simp)

theorem Visible.parseExpressions_post (n m : Nat) (pre cur : List Token) (later : List (List Token)) :
    EPost pre cur later (cur.length + 1 ≤ n ∧ cur.length < m)
      (fun es used cur' => used = es.flatMap Expr.toks ∧ FollowAll es cur' ∧
        ∀ t r, cur' = t :: r → t.tokenType = .exclamationMark)
      (exec (Visible.parseExpressions n m) ⟨cur, later⟩) := by
  induction m generalizing pre cur with
  | zero => exact fun h => Nat.not_lt_zero _ h.2
  | succ m ih =>
    unfold Visible.parseExpressions
    refine .bind .nextIfNe ?_
    rintro o used cur' - (⟨rfl, rfl, rfl, h⟩ | ⟨t, rfl, rfl, rfl, h⟩)
    · exact .pure ⟨rfl, trivial, h⟩
    · refine .bind ((parseExpr_post' n t _ cur' later (by simp)).mono (fun _ h => h)
        (by simp <;> omega) fun _ _ _ _ h => h) ?_
      rintro e used cur' rfl ⟨h1, h2, h3⟩
      refine .bind ((ih _ cur').mono (fun _ h => h) (by simp <;> omega) fun _ _ _ _ h => h) ?_
      rintro es used' cur' rfl ⟨rfl, h4, h5⟩
      exact .pure ⟨by simp [← h1], ⟨h2, h3, h4⟩, h5⟩

theorem Visible.parse_post (n : Nat) (first : Token) (pre cur : List Token) (later : List (List Token))
    (hk : first.Is .VISIBLE) :
    SimplePost n first pre cur later .visible (exec (Visible.parse n first) ⟨cur, later⟩) := by
  unfold Visible.parse
  refine .bind ((Visible.parseExpressions_post n n pre cur later).mono (fun _ h => h) (by omega)
    fun _ _ _ _ h => h) ?_
  rintro es used cur' rfl ⟨rfl, h1, h2⟩
  refine .bind .nextIfEq ?_
  rintro o used' cur'' - (⟨rfl, rfl, rfl, h⟩ | ⟨t, rfl, rfl, rfl, h⟩)
  · have h3 : cur'' = [] := by
      cases cur'' with
      | nil => rfl
      | cons t r => exact absurd (h2 t r rfl) (h t r rfl)
    subst h3
    refine .pure ?_
    have := SimpleG.visible (rest := []) (ex := none) hk (by simpa using h1) (by simp) (by simp)
    simpa using this
  · refine .pure ?_
    have := SimpleG.visible (rest := cur'') (ex := some t) hk (by simpa using h1) (by simpa using h) (by simp)
    simpa using this

theorem Gimmeh.parse_post (n : Nat) (first : Token) (pre cur : List Token) (later : List (List Token))
    (hf : first ∈ pre) (hk : first.Is .GIMMEH) :
    SimplePost n first pre cur later .gimmeh (exec (Gimmeh.parse n first) ⟨cur, later⟩) := by
  unfold Gimmeh.parse
  refine .bind .next ?_
  rintro o used cur' - (⟨rfl, rfl, -, rfl⟩ | ⟨t, rfl, rfl, rfl⟩)
  · exact .fail rfl (by simp [hf]) (by simp)
  · refine .bind ((VariableAccess.parse_post n _ cur' later t (by simp)).mono (fun _ h => h)
      (by simp <;> omega) fun _ _ _ _ h => h) ?_
    rintro v used cur' rfl ⟨h1, h2, h3⟩
    refine .pure ?_
    have := SimpleG.gimmeh (rest := cur') hk h2 h3
    rw [← h1] at this
    simpa using this

theorem FoundYr.parse_post (n : Nat) (first : Token) (pre cur : List Token) (later : List (List Token))
    (hf : first ∈ pre) (hk : first.Is .FOUND_YR) :
    SimplePost n first pre cur later .foundYr (exec (FoundYr.parse n first) ⟨cur, later⟩) := by
  unfold FoundYr.parse
  refine .bind .next ?_
  rintro o used cur' - (⟨rfl, rfl, -, rfl⟩ | ⟨t, rfl, rfl, rfl⟩)
  · exact .fail rfl (by simp [hf]) (by simp)
  · refine .bind ((parseExpr_post' n t _ cur' later (by simp)).mono (fun _ h => h)
      (by simp <;> omega) fun _ _ _ _ h => h) ?_
    rintro e used cur' rfl ⟨h1, h2, h3⟩
    refine .pure ?_
    have := SimpleG.foundYr (rest := cur') hk h2 h3
    rw [← h1] at this
    simpa using this

theorem VariableAccess.lastToken_mem (v : VariableAccess) : v.lastToken ∈ v.toks := by
  unfold VariableAccess.lastToken
  split
  · rename_i slot h
    have := List.mem_of_getLast? h
    simp only [VariableAccess.toks, List.mem_append, List.mem_flatMap]
    exact .inr ⟨slot, this, by simp [VariableAccessSlot.toks, Identifier.toks]⟩
  · simp [VariableAccess.toks, Identifier.toks]

theorem VariableAssignment.parse_post (n : Nat) (v : VariableAccess) (hv : v.WF) (pre cur : List Token)
    (later : List (List Token)) (hp : ∀ t ∈ v.toks, t ∈ pre) :
    EPost pre cur later (cur.length + 1 ≤ n)
      (fun a used cur' => SimpleG cur' (v.toks ++ used) (.variableAssignment a))
      (exec (VariableAssignment.parse n v) ⟨cur, later⟩) := by
  unfold VariableAssignment.parse
  refine .bind .next ?_
  rintro o used cur' - (⟨rfl, rfl, -, rfl⟩ | ⟨t, rfl, rfl, rfl⟩)
  · exact .fail rfl (List.mem_append_left _ (hp _ v.lastToken_mem)) (by simp)
  · dsimp only
    split
    · rename_i ht
      rw [Token.isKeyword_iff] at ht
      refine .bind .next ?_
      rintro o used' cur' - (⟨rfl, rfl, rfl, rfl⟩ | ⟨u, rfl, rfl, rfl⟩)
      · exact .fail rfl (by simp) (by simp)
      · refine .bind ((parseExpr_post' n u _ cur' later (by simp)).mono (fun _ h => h)
          (by simp <;> omega) fun _ _ _ _ h => h) ?_
        rintro e used' cur' rfl ⟨h3, h4, h5⟩
        refine .pure ?_
        have := SimpleG.assignment (rest := cur') hv ht h4 h5
        rw [← h3] at this
        simpa using this
    · exact .fail rfl (List.mem_append_left _ (hp _ v.lastToken_mem)) (by simp)

theorem BukkitSetSlot.parse_post (n : Nat) (v : VariableAccess) (hv : v.WF) (pre cur : List Token)
    (later : List (List Token)) (hp : ∀ t ∈ v.toks, t ∈ pre) :
    EPost pre cur later (cur.length + 1 ≤ n)
      (fun a used cur' => SimpleG cur' (v.toks ++ used) (.bukkitSetSlot a))
      (exec (BukkitSetSlot.parse n v) ⟨cur, later⟩) := by
  unfold BukkitSetSlot.parse
  refine .bind .next ?_
  rintro o used cur' - (⟨rfl, rfl, -, rfl⟩ | ⟨t, rfl, rfl, rfl⟩)
  · exact .fail rfl (List.mem_append_left _ (hp _ v.lastToken_mem)) (by simp)
  · dsimp only
    split
    · rename_i ht
      rw [Token.isKeyword_iff] at ht
      refine .bind .next ?_
      rintro o used' cur' - (⟨rfl, rfl, rfl, rfl⟩ | ⟨u, rfl, rfl, rfl⟩)
      · exact .fail rfl (by simp) (by simp)
      · refine .bind (Identifier.parse_post _ _ _ _ u (by simp)) ?_
        rintro i used cur' rfl ⟨h1, h2⟩
        refine .bind .next ?_
        rintro o used' cur' - (⟨rfl, rfl, rfl, rfl⟩ | ⟨w, rfl, rfl, rfl⟩)
        · refine .fail rfl ?_ (by simp)
          have : i.name ∈ i.toks := by simp [Identifier.toks]
          rw [← h1] at this
          simp only [List.mem_cons] at this
          simp only [List.mem_append, List.mem_cons, List.not_mem_nil, or_false]
          rcases this with h | h <;> simp [h]
        · dsimp only
          split
          · rename_i hw
            rw [Token.isKeyword_iff] at hw
            refine .bind .next ?_
            rintro o used' cur' - (⟨rfl, rfl, rfl, rfl⟩ | ⟨x, rfl, rfl, rfl⟩)
            · exact .fail rfl (by simp) (by simp)
            · refine .bind ((parseExpr_post' n x _ cur' later (by simp)).mono (fun _ h => h)
                (by simp <;> omega) fun _ _ _ _ h => h) ?_
              rintro e used' cur' rfl ⟨h3, h4, h5⟩
              refine .pure ?_
              have := SimpleG.setSlot (rest := cur') hv ht h2 hw h4 h5
              rw [← h1, ← h3] at this
              simpa using this
          · exact .fail rfl (by simp) (by simp)
    · exact .fail rfl (List.mem_append_left _ (hp _ v.lastToken_mem)) (by simp)

theorem IIz.parseArguments_post (n m : Nat) (pre cur : List Token) (later : List (List Token)) :
    EPost pre cur later (cur.length + 1 ≤ n ∧ cur.length < m)
      (fun es used cur' => ArgsG cur' used es)
      (exec (IIz.parseArguments n m) ⟨cur, later⟩) := by
  induction m generalizing pre cur with
  | zero => exact fun h => Nat.not_lt_zero _ h.2
  | succ m ih =>
    unfold IIz.parseArguments
    refine .bind .nextIf ?_
    rintro o used cur' - (⟨rfl, rfl, rfl, h⟩ | ⟨t, rfl, rfl, rfl, h⟩)
    · exact .pure .nil
    · rw [Token.isKeyword_iff] at h
      refine .bind .next ?_
      rintro o used' cur' - (⟨rfl, rfl, rfl, rfl⟩ | ⟨u, rfl, rfl, rfl⟩)
      · exact .fail rfl (by simp) (by simp)
      · refine .bind ((parseExpr_post' n u _ cur' later (by simp)).mono (fun _ h => h)
          (by simp <;> omega) fun _ _ _ _ h => h) ?_
        rintro e used cur' rfl ⟨h1, h2, h3⟩
        refine .bind .nextIf ?_
        rintro o used' cur'' - (⟨rfl, rfl, rfl, -⟩ | ⟨w, rfl, rfl, rfl, hw⟩)
        · refine .pure ?_
          have := ArgsG.one h h2 h3
          rw [← h1] at this
          simpa using this
        · rw [Token.isKeyword_iff] at hw
          refine .bind ((ih _ cur'').mono (fun _ h => h) (by simp <;> omega) fun _ _ _ _ h => h) ?_
          rintro es used' cur' rfl h4
          refine .pure ?_
          have := ArgsG.cons h h2 (fun ho => by have := h3.1 ho; simp at this) hw h4
          rw [← h1] at this
          simpa using this

theorem IIz.parse_post (n : Nat) (first : Token) (pre cur : List Token) (later : List (List Token))
    (hf : first ∈ pre) (hk : first.Is .I_IZ) :
    SimplePost n first pre cur later .iIz (exec (IIz.parse n first) ⟨cur, later⟩) := by
  unfold IIz.parse
  refine .bind .next ?_
  rintro o used cur' - (⟨rfl, rfl, -, rfl⟩ | ⟨t, rfl, rfl, rfl⟩)
  · exact .fail rfl (by simp [hf]) (by simp)
  · refine .bind ((VariableAccess.parse_post n _ cur' later t (by simp)).mono (fun _ h => h)
      (by simp <;> omega) fun _ _ _ _ h => h) ?_
    rintro v used cur' rfl ⟨h1, h2, h3⟩
    refine .bind ((IIz.parseArguments_post n n _ cur' later).mono (fun _ h => h)
      (by simp <;> omega) fun _ _ _ _ h => h) ?_
    rintro es used' cur' rfl h4
    refine .bind .next ?_
    rintro o used'' cur' - (⟨rfl, rfl, rfl, rfl⟩ | ⟨u, rfl, rfl, rfl⟩)
    · exact .fail rfl (by simp [hf]) (by simp)
    · dsimp only
      split
      · rename_i hu
        rw [Token.isKeyword_iff] at hu
        refine .pure ?_
        have := SimpleG.call (rest := cur') hk h2 h4 hu
        rw [← h1] at this
        simpa using this
      · exact .fail rfl (by simp) (by simp)

theorem parseConditional_post (n : Nat) (pre cur : List Token) (later : List (List Token)) :
    EPost pre cur later (cur.length + 1 ≤ n)
      (fun c used cur' => cur' = [] → ConditionG used c)
      (exec (parseConditional n) ⟨cur, later⟩) := by
  unfold parseConditional
  refine .bind .nextIf ?_
  rintro o used cur' - (⟨rfl, rfl, rfl, h⟩ | ⟨t, rfl, rfl, rfl, h⟩)
  · exact .pure fun _ => .none
  · refine .bind .next ?_
    rintro o used' cur' - (⟨rfl, rfl, rfl, rfl⟩ | ⟨u, rfl, rfl, rfl⟩)
    · exact .fail rfl (by simp) (by simp)
    · refine .bind ((parseExpr_post' n u _ cur' later (by simp)).mono (fun _ h => h)
        (by simp <;> omega) fun _ _ _ _ h => h) ?_
      rintro e used cur' rfl ⟨h1, h2, h3⟩
      split
      · rename_i ht
        rw [Token.isKeyword_iff] at ht
        refine .pure fun _ => ?_
        have := ConditionG.til ht h2
        rw [← h1] at this
        simpa using this
      · rename_i ht
        have ht : t.Is .WILE := by
          simp only [Bool.or_eq_true, Token.isKeyword_iff] at h ht
          exact h.resolve_left ht
        refine .pure fun _ => ?_
        have := ConditionG.wile ht h2
        rw [← h1] at this
        simpa using this

theorem parseIterationOperation_post (n : Nat) (pre cur : List Token) (later : List (List Token)) :
    EPost pre cur later (cur.length < n)
      (fun c used _ => IterationG used c)
      (exec (parseIterationOperation n) ⟨cur, later⟩) := by
  unfold parseIterationOperation
  refine .bind .nextIf ?_
  rintro o used cur' - (⟨rfl, rfl, rfl, h⟩ | ⟨t, rfl, rfl, rfl, h⟩)
  · exact .pure .none
  · have hop : ∀ op : LoopOperation, op = (if t.isKeyword .UPPIN then LoopOperation.uppin t else .nerfin t) →
        op.token = t ∧ t.Is op.keyword := by
      rintro op rfl
      split
      · rename_i ht
        exact ⟨rfl, Token.isKeyword_iff.1 ht⟩
      · rename_i ht
        refine ⟨rfl, ?_⟩
        simp only [Bool.or_eq_true, Token.isKeyword_iff] at h ht
        exact h.resolve_left ht
    dsimp only
    generalize (if t.isKeyword .UPPIN then LoopOperation.uppin t else .nerfin t) = op at hop ⊢
    obtain ⟨rfl, hk⟩ := hop op rfl
    refine .bind .next ?_
    rintro o used' cur' - (⟨rfl, rfl, rfl, rfl⟩ | ⟨u, rfl, rfl, rfl⟩)
    · exact .fail rfl (by simp) (by simp)
    · dsimp only
      split
      · rename_i hu
        rw [Token.isKeyword_iff] at hu
        refine .bind .next ?_
        rintro o used' cur' - (⟨rfl, rfl, rfl, rfl⟩ | ⟨w, rfl, rfl, rfl⟩)
        · exact .fail rfl (by simp) (by simp)
        · refine .bind ((VariableAccess.parse_post n _ cur' later w (by simp)).mono (fun _ h => h)
            (by simp <;> omega) fun _ _ _ _ h => h) ?_
          rintro v used cur' rfl ⟨h1, h2, h3⟩
          refine .pure ?_
          have := IterationG.some hk hu h2
          rw [← h1] at this
          simpa using this
      · exact .fail rfl (by simp) (by simp)

theorem parseParameters_post (m : Nat) (pre cur : List Token) (later : List (List Token)) :
    EPost pre cur later (cur.length < m) (fun is used _ => ParamsG used is)
      (exec (parseParameters m) ⟨cur, later⟩) := by
  induction m generalizing pre cur with
  | zero => exact Nat.not_lt_zero _
  | succ m ih =>
    unfold parseParameters
    refine .bind .nextIf ?_
    rintro o used cur' - (⟨rfl, rfl, rfl, h⟩ | ⟨t, rfl, rfl, rfl, h⟩)
    · exact .pure .nil
    · rw [Token.isKeyword_iff] at h
      refine .bind .next ?_
      rintro o used' cur' - (⟨rfl, rfl, rfl, rfl⟩ | ⟨u, rfl, rfl, rfl⟩)
      · exact .fail rfl (by simp) (by simp)
      · refine .bind (Identifier.parse_post _ _ _ _ u (by simp)) ?_
        rintro i used cur' rfl ⟨h1, h2⟩
        have h3 := ParamsG.one h h2
        rw [← h1] at h3
        cases cur' with
        | nil =>
          simp only [exec_bind, exec_peek_nil, Res.andThen_ok]
          exact .pure (by simpa using h3)
        | cons w cur' =>
          simp only [exec_bind, exec_peek_cons, Res.andThen_ok]
          split
          · rename_i hw
            rw [Token.isKeyword_iff] at hw
            refine .bind .next ?_
            rintro o used' cur' - (⟨rfl, rfl, h4, rfl⟩ | ⟨w', rfl, rfl, h4⟩)
            · cases h4
            · cases h4
              refine .bind ((ih _ cur').mono (fun _ h => h) (by simp <;> omega) fun _ _ _ _ h => h) ?_
              rintro is used' cur' rfl h4
              refine .pure ?_
              have := ParamsG.cons h h2 hw h4
              rw [← h1] at this
              simpa using this
          · exact .pure (by simpa using h3)

end Lol
