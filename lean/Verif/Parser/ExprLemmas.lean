import Verif.Parser.Exec
import Verif.Parser.StmtSpec
import Verif.Parser.Expr

/-! # What the expression parsers do: lemmas -/

namespace Lol

/-- What a parser that stays in the current statement does. `pre` are the tokens it holds already, `F` says that
it has enough fuel, `Q` relates its value, the tokens it consumes and the tokens it leaves. -/
def EPost {α : Type} (pre cur : List Token) (later : List (List Token)) (F : Prop)
    (Q : α → List Token → List Token → Prop) : Res Stmts α → Prop
  | .ok a s => ∃ used cur', s = ⟨cur', later⟩ ∧ cur = used ++ cur' ∧ Q a used cur'
  | .err e s => ∃ used cur' t, s = ⟨cur', later⟩ ∧ cur = used ++ cur' ∧ e.toks = [t] ∧ t ∈ pre ++ used ∧
      ∀ ts, e ≠ .tooManyTokens ts
  | .panic p => p = .todoMaek ∧ ∃ t ∈ pre ++ cur, t.Is .MAEK
  | .outOfFuel => ¬ F

theorem EPost.mono {α : Type} {pre pre' cur : List Token} {later : List (List Token)} {F F' : Prop}
    {Q Q' : α → List Token → List Token → Prop} {r : Res Stmts α} (h : EPost pre cur later F Q r)
    (hp : ∀ t ∈ pre, t ∈ pre') (hF : F' → F)
    (hQ : ∀ a used cur', cur = used ++ cur' → Q a used cur' → Q' a used cur') :
    EPost pre' cur later F' Q' r := by
  cases r with
  | ok a s =>
    obtain ⟨u, c, h1, h2, h3⟩ := h
    exact ⟨u, c, h1, h2, hQ _ _ _ h2 h3⟩
  | err e s =>
    obtain ⟨u, c, t, h1, h2, h3, h4, h5⟩ := h
    refine ⟨u, c, t, h1, h2, h3, ?_, h5⟩
    rcases List.mem_append.1 h4 with h | h
    · exact List.mem_append_left _ (hp t h)
    · exact List.mem_append_right _ h
  | panic p =>
    obtain ⟨h1, t, h2, h3⟩ := h
    refine ⟨h1, t, ?_, h3⟩
    rcases List.mem_append.1 h2 with h | h
    · exact List.mem_append_left _ (hp t h)
    · exact List.mem_append_right _ h
  | outOfFuel => exact fun hf => h (hF hf)

theorem EPost.bind {α β : Type} {pre cur : List Token} {later : List (List Token)} {F : Prop}
    {Q1 : α → List Token → List Token → Prop} {Q : β → List Token → List Token → Prop}
    {p : Prog α} {f : α → Prog β} (h1 : EPost pre cur later F Q1 (exec p ⟨cur, later⟩))
    (h2 : ∀ a used cur', cur = used ++ cur' → Q1 a used cur' →
      EPost (pre ++ used) cur' later F (fun b used2 cur'' => Q b (used ++ used2) cur'')
        (exec (f a) ⟨cur', later⟩)) :
    EPost pre cur later F Q (exec (p >>= f) ⟨cur, later⟩) := by
  rw [exec_bind]
  cases hp : exec p ⟨cur, later⟩ with
  | ok a s =>
    rw [hp] at h1
    obtain ⟨u, c, rfl, rfl, hq⟩ := h1
    have := h2 a u c rfl hq
    rw [Res.andThen_ok]
    cases hf : exec (f a) ⟨c, later⟩ with
    | ok b s =>
      rw [hf] at this
      obtain ⟨u2, c2, h1, h2, h3⟩ := this
      exact ⟨u ++ u2, c2, h1, by rw [h2]; simp, h3⟩
    | err e s =>
      rw [hf] at this
      obtain ⟨u2, c2, t, h1, h2, h3, h4, h5⟩ := this
      exact ⟨u ++ u2, c2, t, h1, by rw [h2]; simp, h3, by simpa using h4, h5⟩
    | panic p =>
      rw [hf] at this
      obtain ⟨h1, t, h2, h3⟩ := this
      exact ⟨h1, t, by simpa using h2, h3⟩
    | outOfFuel => rw [hf] at this; exact this
  | err e s => rw [hp] at h1; exact h1
  | panic s => rw [hp] at h1; exact h1
  | outOfFuel => rw [hp] at h1; exact h1

theorem EPost.pure {α : Type} {pre cur : List Token} {later : List (List Token)} {F : Prop}
    {Q : α → List Token → List Token → Prop} {a : α} (h : Q a [] cur) :
    EPost pre cur later F Q (exec (Pure.pure a) ⟨cur, later⟩) := ⟨[], cur, rfl, rfl, h⟩

theorem EPost.fail {α : Type} {pre cur : List Token} {later : List (List Token)} {F : Prop}
    {Q : α → List Token → List Token → Prop} {e : ASTError} {t : Token} (h : e.toks = [t]) (ht : t ∈ pre)
    (hn : ∀ ts, e ≠ .tooManyTokens ts) :
    EPost pre cur later F Q (exec (Lol.fail (α := α) e) ⟨cur, later⟩) :=
  ⟨[], cur, t, rfl, rfl, h, by simpa using ht, hn⟩

/-- Facts about `next`. -/
theorem EPost.next {pre cur : List Token} {later : List (List Token)} {F : Prop} :
    EPost pre cur later F (fun o used cur' => (o = none ∧ used = [] ∧ cur = [] ∧ cur' = []) ∨
      ∃ t, o = some t ∧ used = [t] ∧ cur = t :: cur') (exec Lol.next ⟨cur, later⟩) := by
  cases cur with
  | nil => exact ⟨[], [], rfl, rfl, .inl ⟨rfl, rfl, rfl, rfl⟩⟩
  | cons t c => exact ⟨[t], c, rfl, rfl, .inr ⟨t, rfl, rfl, rfl⟩⟩

/-- Facts about `next_if`. -/
theorem EPost.nextIf {pre cur : List Token} {later : List (List Token)} {F : Prop} {f : Token → Bool} :
    EPost pre cur later F (fun o used cur' =>
      (o = none ∧ used = [] ∧ cur' = cur ∧ ∀ t r, cur = t :: r → f t = false) ∨
      ∃ t, o = some t ∧ used = [t] ∧ cur = t :: cur' ∧ f t = true) (exec (Lol.nextIf f) ⟨cur, later⟩) := by
  cases cur with
  | nil => exact ⟨[], [], rfl, rfl, .inl ⟨rfl, rfl, rfl, by simp⟩⟩
  | cons t c =>
    rw [exec_nextIf_cons]
    cases h : f t with
    | true => exact ⟨[t], c, rfl, rfl, .inr ⟨t, rfl, rfl, rfl, h⟩⟩
    | false => exact ⟨[], t :: c, rfl, rfl, .inl ⟨rfl, rfl, rfl, by simp [h]⟩⟩

/-- Facts about `next_if_token_type_eq`. -/
theorem EPost.nextIfEq {pre cur : List Token} {later : List (List Token)} {F : Prop} {ty : TokenType} :
    EPost pre cur later F (fun o used cur' =>
      (o = none ∧ used = [] ∧ cur' = cur ∧ ∀ t r, cur = t :: r → t.tokenType ≠ ty) ∨
      ∃ t, o = some t ∧ used = [t] ∧ cur = t :: cur' ∧ t.tokenType = ty)
      (exec (nextIfTokenTypeEq ty) ⟨cur, later⟩) := by
  cases cur with
  | nil => exact ⟨[], [], rfl, rfl, .inl ⟨rfl, rfl, rfl, by simp⟩⟩
  | cons t c =>
    rw [exec_nextIfTokenTypeEq_cons]
    split
    · exact ⟨[t], c, rfl, rfl, .inr ⟨t, rfl, rfl, rfl, by assumption⟩⟩
    · rename_i h
      exact ⟨[], t :: c, rfl, rfl, .inl ⟨rfl, rfl, rfl, by simp [h]⟩⟩

/-- Facts about `next_if_token_type_ne`. -/
theorem EPost.nextIfNe {pre cur : List Token} {later : List (List Token)} {F : Prop} {ty : TokenType} :
    EPost pre cur later F (fun o used cur' =>
      (o = none ∧ used = [] ∧ cur' = cur ∧ ∀ t r, cur = t :: r → t.tokenType = ty) ∨
      ∃ t, o = some t ∧ used = [t] ∧ cur = t :: cur' ∧ t.tokenType ≠ ty)
      (exec (nextIfTokenTypeNe ty) ⟨cur, later⟩) := by
  cases cur with
  | nil => exact ⟨[], [], rfl, rfl, .inl ⟨rfl, rfl, rfl, by simp⟩⟩
  | cons t c =>
    rw [exec_nextIfTokenTypeNe_cons]
    split
    · rename_i h
      exact ⟨[], t :: c, rfl, rfl, .inl ⟨rfl, rfl, rfl, by simp [h]⟩⟩
    · exact ⟨[t], c, rfl, rfl, .inr ⟨t, rfl, rfl, rfl, by assumption⟩⟩

/-! ## Identifiers and variable accesses -/

theorem Identifier.parse_post (pre cur : List Token) (later : List (List Token)) (F : Prop) (first : Token)
    (hf : first ∈ pre) : EPost pre cur later F
      (fun i used _ => first :: used = i.toks ∧ i.WF) (exec (Identifier.parse first) ⟨cur, later⟩) := by
  unfold Identifier.parse
  split
  · rename_i name h
    exact .pure ⟨rfl, ⟨name, h⟩, by simp⟩
  · rename_i h
    refine .bind .next ?_
    rintro o used cur' - (⟨rfl, rfl, -, rfl⟩ | ⟨t, rfl, rfl, -⟩)
    · exact .fail rfl (by simp [hf]) (by simp)
    · dsimp only
      split
      · rename_i name hn
        exact .pure ⟨by simp [Identifier.toks], ⟨name, hn⟩, by simp [Token.Is, h]⟩
      · exact .fail rfl (by simp) (by simp)
  · exact .fail rfl hf (by simp)

theorem VariableAccess.parseSlots_post (n : Nat) (pre cur : List Token) (later : List (List Token)) :
    EPost pre cur later (cur.length < n)
      (fun ss used cur' => used = ss.flatMap (·.toks) ∧ (∀ s ∈ ss, s.WF) ∧ NoSlot cur')
      (exec (VariableAccess.parseSlots n) ⟨cur, later⟩) := by
  induction n generalizing pre cur with
  | zero => exact Nat.not_lt_zero _
  | succ n ih =>
    unfold VariableAccess.parseSlots
    refine .bind .nextIf ?_
    rintro o used cur' - (⟨rfl, rfl, rfl, h⟩ | ⟨t, rfl, rfl, rfl, h⟩)
    · exact .pure ⟨rfl, by simp, fun t r hr => by simpa using h t r hr⟩
    · refine .bind .next ?_
      rintro o used cur' - (⟨rfl, rfl, -, rfl⟩ | ⟨u, rfl, rfl, rfl⟩)
      · exact .fail rfl (by simp) (by simp)
      · refine .bind (Identifier.parse_post _ _ _ _ u (by simp)) ?_
        rintro i used cur' rfl ⟨h1, h2⟩
        refine .bind ((ih _ cur').mono (fun _ h => h) (by simp <;> omega) fun _ _ _ _ h => h) ?_
        rintro ss used' cur'' rfl ⟨rfl, h3, h4⟩
        refine .pure ⟨?_, ?_, h4⟩
        · simp only [List.flatMap_cons, VariableAccessSlot.toks, ← h1]
          simp
        · intro s hs
          rcases List.mem_cons.1 hs with rfl | hs
          · exact ⟨by simpa using h, h2⟩
          · exact h3 s hs

theorem VariableAccess.parse_post (n : Nat) (pre cur : List Token) (later : List (List Token)) (first : Token)
    (hf : first ∈ pre) : EPost pre cur later (cur.length < n)
      (fun v used cur' => first :: used = v.toks ∧ v.WF ∧ NoSlot cur')
      (exec (VariableAccess.parse n first) ⟨cur, later⟩) := by
  unfold VariableAccess.parse
  refine .bind (Identifier.parse_post _ _ _ _ first hf) ?_
  rintro i used cur' rfl ⟨h1, h2⟩
  refine .bind ((VariableAccess.parseSlots_post n _ cur' later).mono (fun _ h => h)
    (by simp <;> omega) fun _ _ _ _ h => h) ?_
  rintro ss used' cur'' rfl ⟨rfl, h3, h4⟩
  refine .pure ⟨?_, ⟨h2, h3⟩, h4⟩
  simp [VariableAccess.toks, ← h1]

/-! ## Expressions: soundness -/

mutual

/-- The expression is well formed when `rest` follows it (`G_iff` relates this to `WF` and `Follow`). -/
def Expr.G : Expr → List Token → Prop
  | .value (.variableAccess v), rest => v.WF ∧ NoSlot rest
  | .value (.literal t), _ => t.IsLiteral
  | .unary op e, rest => op.token.Is op.keyword ∧ e.G rest
  | .binary op l an r, rest => op.token.Is op.keyword ∧ l.G (an.toList ++ (r.toks ++ rest)) ∧
      (∀ t ∈ an, t.Is .AN) ∧ r.G rest
  | .nary op es mkay, rest => op.token.Is op.keyword ∧ GOperands es (mkay.toList ++ rest) ∧
      (∀ t ∈ mkay, t.Is .MKAY) ∧ (mkay = none → rest = [])

/-- The same for a list of operands. -/
def GOperands : List Operand → List Token → Prop
  | [], _ => True
  | .mk e an :: es, rest => e.G (an.toList ++ (toksOperands es ++ rest)) ∧ (∀ t ∈ an, t.Is .AN) ∧
      GOperands es rest

end

/-- What is to be shown for `parseExpr n first`. -/
def ExprPost (n : Nat) (first : Token) (pre cur : List Token) (later : List (List Token)) :
    Res Stmts Expr → Prop :=
  EPost pre cur later (cur.length + 2 ≤ n) (fun e used cur' => first :: used = e.toks ∧ e.G cur')

theorem parseBinary_post {n : Nat} {pre cur : List Token} {later : List (List Token)}
    {expr : Token → Prog Expr}
    (ih : ∀ first pre cur, first ∈ pre → ExprPost n first pre cur later (exec (expr first) ⟨cur, later⟩))
    (op : BinaryOpt) (hop : op.token ∈ pre) (hk : op.token.Is op.keyword) :
    ExprPost (n + 1) op.token pre cur later (exec (parseBinary expr op) ⟨cur, later⟩) := by
  unfold parseBinary
  refine .bind .next ?_
  rintro o used cur' - (⟨rfl, rfl, -, rfl⟩ | ⟨t, rfl, rfl, rfl⟩)
  · exact .fail rfl (by simp [hop]) (by simp)
  · refine .bind ((ih t _ cur' (by simp)).mono (fun _ h => h) (by simp <;> omega) fun _ _ _ _ h => h) ?_
    rintro l used cur' rfl ⟨h1, h2⟩
    refine .bind .nextIf ?_
    intro an used' cur'' hcur han
    have han' : (∀ t ∈ an, t.Is .AN) ∧ used' = an.toList ∧ cur' = an.toList ++ cur'' := by
      rcases han with ⟨rfl, rfl, rfl, -⟩ | ⟨u, rfl, rfl, rfl, hu⟩
      · simp
      · simpa [Token.Is, Token.isKeyword] using hu
    clear hcur han
    obtain ⟨han, rfl, rfl⟩ := han'
    refine .bind .next ?_
    rintro o used' cur' - (⟨rfl, rfl, -, rfl⟩ | ⟨u, rfl, rfl, rfl⟩)
    · exact .fail rfl (by simp [hop]) (by simp)
    · refine .bind ((ih u _ cur' (by simp)).mono (fun _ h => h) (by simp <;> omega) fun _ _ _ _ h => h) ?_
      rintro r used' cur' rfl ⟨h3, h4⟩
      refine .pure ⟨?_, hk, ?_, han, h4⟩
      · simp [Expr.toks, ← h1, ← h3]
      · simpa [← h3] using h2

theorem parseUnary_post {n : Nat} {pre cur : List Token} {later : List (List Token)}
    {expr : Token → Prog Expr}
    (ih : ∀ first pre cur, first ∈ pre → ExprPost n first pre cur later (exec (expr first) ⟨cur, later⟩))
    (op : UnaryOpt) (hop : op.token ∈ pre) (hk : op.token.Is op.keyword) :
    ExprPost (n + 1) op.token pre cur later (exec (parseUnary expr op) ⟨cur, later⟩) := by
  unfold parseUnary
  refine .bind .next ?_
  rintro o used cur' - (⟨rfl, rfl, -, rfl⟩ | ⟨t, rfl, rfl, rfl⟩)
  · exact .fail rfl (by simp [hop]) (by simp)
  · refine .bind ((ih t _ cur' (by simp)).mono (fun _ h => h) (by simp <;> omega) fun _ _ _ _ h => h) ?_
    rintro l used cur' rfl ⟨h1, h2⟩
    refine .pure ⟨?_, hk, h2⟩
    simp [Expr.toks, ← h1]

theorem parseOperands_post {n : Nat} {later : List (List Token)} {expr : Token → Prog Expr}
    (ih : ∀ first pre cur, first ∈ pre → ExprPost n first pre cur later (exec (expr first) ⟨cur, later⟩))
    (m : Nat) (pre cur : List Token) :
    EPost pre cur later (cur.length < m ∧ cur.length + 1 ≤ n)
      (fun es used cur' => used = toksOperands es ∧ GOperands es cur' ∧
        ∀ t r, cur' = t :: r → t.Is .MKAY)
      (exec (parseOperands expr m) ⟨cur, later⟩) := by
  induction m generalizing pre cur with
  | zero => exact fun h => Nat.not_lt_zero _ h.1
  | succ m ihm =>
    unfold parseOperands
    refine .bind .nextIfNe ?_
    rintro o used cur' - (⟨rfl, rfl, rfl, h⟩ | ⟨t, rfl, rfl, rfl, h⟩)
    · exact .pure ⟨rfl, trivial, h⟩
    · refine .bind ((ih t _ cur' (by simp)).mono (fun _ h => h) (by simp <;> omega) fun _ _ _ _ h => h) ?_
      rintro e used cur' rfl ⟨h1, h2⟩
      refine .bind .nextIfEq ?_
      intro an used' cur'' hcur han
      have han' : (∀ t ∈ an, t.Is .AN) ∧ used' = an.toList ∧ cur' = an.toList ++ cur'' := by
        rcases han with ⟨rfl, rfl, rfl, -⟩ | ⟨u, rfl, rfl, rfl, hu⟩
        · simp
        · simpa [Token.Is] using hu
      clear hcur han
      obtain ⟨han, rfl, rfl⟩ := han'
      refine .bind ((ihm _ cur'').mono (fun _ h => h) ?_ fun _ _ _ _ h => h) ?_
      · simp; omega
      · rintro es used' cur' rfl ⟨rfl, h4, h5⟩
        refine .pure ⟨?_, ⟨?_, han, h4⟩, h5⟩
        · simp [toksOperands, ← h1]
        · simpa using h2

theorem parseNary_post {n : Nat} {pre cur : List Token} {later : List (List Token)}
    {expr : Token → Prog Expr}
    (ih : ∀ first pre cur, first ∈ pre → ExprPost n first pre cur later (exec (expr first) ⟨cur, later⟩))
    (op : NaryOpt) (_hop : op.token ∈ pre) (hk : op.token.Is op.keyword) :
    ExprPost (n + 1) op.token pre cur later (exec (parseNary expr n op) ⟨cur, later⟩) := by
  unfold parseNary
  refine .bind ((parseOperands_post ih n pre cur).mono (fun _ h => h) (by omega) fun _ _ _ _ h => h) ?_
  rintro es used cur' rfl ⟨rfl, h1, h2⟩
  refine .bind .next ?_
  rintro o used cur'' - (⟨rfl, rfl, rfl, rfl⟩ | ⟨t, rfl, rfl, rfl⟩)
  · exact .pure ⟨by simp [Expr.toks], hk, by simpa using h1, by simp, by simp⟩
  · refine .pure ⟨by simp [Expr.toks], hk, by simpa using h1, ?_, by simp⟩
    simpa using h2 t cur'' rfl

theorem parseExpr_post (n : Nat) (first : Token) (pre cur : List Token) (later : List (List Token))
    (hf : first ∈ pre) : ExprPost n first pre cur later (exec (parseExpr n first) ⟨cur, later⟩) := by
  induction n generalizing first pre cur with
  | zero => simp [ExprPost, EPost, parseExpr]
  | succ n ih =>
    have ih' : ∀ first pre cur, first ∈ pre →
        ExprPost n first pre cur later (exec (parseExpr n first) ⟨cur, later⟩) :=
      fun first pre cur hf => ih first pre cur hf
    have access : ExprPost (n + 1) first pre cur later (exec (do
        let v ← VariableAccess.parse n first
        pure (.value (.variableAccess v))) ⟨cur, later⟩) := by
      refine .bind ((VariableAccess.parse_post n pre cur later first hf).mono (fun _ h => h) (by omega)
        fun _ _ _ _ h => h) ?_
      rintro v used cur' rfl ⟨h1, h2, h3⟩
      exact .pure ⟨by simpa [Expr.toks, ExprValue.toks] using h1, h2, h3⟩
    unfold parseExpr
    split
    case h_1 | h_2 => exact access
    case h_3 => rename_i v h; exact .pure ⟨rfl, .inl ⟨v, h⟩⟩
    case h_4 => rename_i h; exact .pure ⟨rfl, .inr h⟩
    case h_21 => rename_i h; exact ⟨rfl, first, by simp [hf], h⟩
    case h_22 => exact .fail rfl hf (by simp)
    case h_8 => rename_i h; exact parseUnary_post ih' (.not first) hf h
    case h_9 => rename_i h; exact parseNary_post ih' (.allOf first) hf h
    case h_10 => rename_i h; exact parseNary_post ih' (.anyOf first) hf h
    case h_20 => rename_i h; exact parseNary_post ih' (.smoosh first) hf h
    all_goals
      rename_i h
      exact parseBinary_post ih' _ hf h

end Lol
