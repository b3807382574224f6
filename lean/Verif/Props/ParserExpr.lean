import Verif.Parser.ExprComplete
import Verif.Parser.RunLemmas
import Verif.Lexer.Model

/-!
# Properties of expression parsing (C26, C27, C30)

`s.statement 0` is what is left of the current statement, `s.statement k` the `k`-th statement after it
(`Verif/Parser/IterSpec.lean`). The grammar is in `Verif/Parser/ExprSpec.lean`.
-/

namespace Lol

open StatementIterator

/-! ## C26: soundness -/

/-- **C26** An expression that is parsed holds exactly the tokens consumed, in order; it is well formed, what is
left cannot extend it, and the later statements are untouched. -/
theorem C26_sound {tokens : List Token} {s s' : StatementIterator} (hs : Reachable tokens s) {n : Nat}
    {first : Token} {e : Expr} (h : (parseExpr n first).run ops s = .ok e s') :
    first :: s.statement 0 = e.toks ++ s'.statement 0 ∧ (∀ k, s'.statement (k + 1) = s.statement (k + 1)) ∧
      e.WF ∧ e.Follow (s'.statement 0) := by
  have hs' := (run_sound _ s hs.sound).1 _ _ h
  have h1 := run_ok_exec hs.sound h
  have h2 := parseExpr_post n first [first] s.abs.cur s.abs.later (by simp)
  rw [show (⟨s.abs.cur, s.abs.later⟩ : Stmts) = s.abs from rfl, h1] at h2
  obtain ⟨used, cur', h3, h4, h5, h6⟩ := h2
  rw [statement_zero hs.sound, statement_zero hs', h3, h4]
  refine ⟨by rw [← h5]; rfl, fun k => ?_, (Expr.G_iff e cur').1 h6⟩
  rw [statement_abs s hs.sound, statement_abs s' hs', h3]
  rfl

-- `SUM OF x AN y` and three tokens left in the statement
example : ∃ first rest s s' e, tokenize chars!"SUM OF x AN y ! z GTFO" = .ok (.ok (first :: rest)) ∧
    Reachable (first :: rest) s ∧ (parseExpr 10 first).run ops s = .ok e s' ∧ s'.statement 0 = rest.drop 3 ∧
    (s'.statement 0).length = 3 := by
  refine ⟨_, _, _, _, _, rfl, .next .new, rfl, ?_, ?_⟩ <;> decide +kernel

/-! ## C27: completeness and unambiguity -/

/-- **C27** Every well formed expression is parsed back from its tokens, followed by tokens that cannot extend it,
whatever the statements after it; the bound on the recursion only has to exceed the length of the statement. -/
theorem C27_complete {tokens : List Token} {s : StatementIterator} (hs : Reachable tokens s) {n : Nat}
    {first : Token} {e : Expr} {rest : List Token} (he : e.WF) (hr : e.Follow rest)
    (h : first :: s.statement 0 = e.toks ++ rest) (hn : (s.statement 0).length + 2 ≤ n) :
    ∃ s', (parseExpr n first).run ops s = .ok e s' ∧ s'.statement 0 = rest := by
  obtain ⟨t, ts, ht⟩ := e.toks_ne
  rw [statement_zero hs.sound] at h hn
  rw [ht, List.cons_append, List.cons.injEq] at h
  obtain ⟨rfl, h2⟩ := h
  have h3 := parseExpr_complete e rest s.abs.later n first ts ht ((Expr.G_iff e rest).2 ⟨he, hr⟩)
    (by rw [h2] at hn; simpa using hn)
  rw [← h2] at h3
  obtain ⟨s', h4, h5⟩ := exec_ok_run hs.sound h3
  refine ⟨s', h4, ?_⟩
  rw [statement_zero ((run_sound _ s hs.sound).1 _ _ h4), h5]

example : ∃ first rest s, tokenize chars!"NOT x AN\nGTFO" = .ok (.ok (first :: rest)) ∧ Reachable (first :: rest) s ∧
    ∃ (e : Expr) (an : Token), e.WF ∧ e.Follow [an] ∧ first :: s.statement 0 = e.toks ++ [an] ∧ (s.statement 0).length = 2 := by
  refine ⟨_, _, _, rfl, .next .new, .unary (.not _) (.value (.variableAccess ⟨⟨_, none⟩, []⟩)), _, ?_, ?_, rfl, rfl⟩
  · simp [Expr.WF, Token.Is, UnaryOpt.token, UnaryOpt.keyword, VariableAccess.WF, Identifier.WF, Token.IsIdent]
  · simp [Expr.Follow, Expr.Open, Expr.EndsInAccess, NoSlot]

/-- **C26, C27** Together: an expression is parsed exactly if the statement starts with its tokens, it is well
formed and the rest of the statement cannot extend it. -/
theorem C27_iff {tokens : List Token} {s : StatementIterator} (hs : Reachable tokens s) {n : Nat}
    {first : Token} {e : Expr} (hn : (s.statement 0).length + 2 ≤ n) :
    (∃ s', (parseExpr n first).run ops s = .ok e s') ↔
      ∃ rest, first :: s.statement 0 = e.toks ++ rest ∧ e.WF ∧ e.Follow rest := by
  constructor
  · rintro ⟨s', h⟩
    obtain ⟨h1, -, h2, h3⟩ := C26_sound hs h
    exact ⟨_, h1, h2, h3⟩
  · rintro ⟨rest, h1, h2, h3⟩
    obtain ⟨s', h4, -⟩ := C27_complete hs h2 h3 h1 hn
    exact ⟨s', h4⟩

example : ∃ first rest s s' e, tokenize chars!"SMOOSH x AN NOT y MKAY\nGTFO" = .ok (.ok (first :: rest)) ∧
    Reachable (first :: rest) s ∧ (s.statement 0).length = 5 ∧ (parseExpr 10 first).run ops s = .ok e s' ∧
    first :: s.statement 0 = e.toks :=
  ⟨_, _, _, _, _, rfl, .next .new, rfl, rfl, rfl⟩

/-- **C27** Two well formed expressions at the start of the same tokens, both followed by tokens that cannot
extend them, are equal. -/
theorem C27_unambiguous {e e' : Expr} {rest rest' : List Token} (he : e.WF) (he' : e'.WF)
    (hr : e.Follow rest) (hr' : e'.Follow rest') (h : e.toks ++ rest = e'.toks ++ rest') :
    e = e' ∧ rest = rest' := by
  obtain ⟨t, ts, ht⟩ := e.toks_ne
  obtain ⟨t', ts', ht'⟩ := e'.toks_ne
  have h1 := parseExpr_complete e rest [] (ts.length + rest.length + 2) t ts ht
    ((Expr.G_iff e rest).2 ⟨he, hr⟩) (by omega)
  rw [ht, ht', List.cons_append, List.cons_append, List.cons.injEq] at h
  obtain ⟨rfl, h⟩ := h
  have h3 := congrArg List.length h
  simp only [List.length_append] at h3
  have h2 := parseExpr_complete e' rest' [] (ts.length + rest.length + 2) t ts' ht'
    ((Expr.G_iff e' rest').2 ⟨he', hr'⟩) (by omega)
  rw [h, h2] at h1
  simp only [Res.ok.injEq, Stmts.mk.injEq, and_true] at h1
  exact ⟨h1.1.symm, h1.2.symm⟩

/-- **C27** Different well formed expressions have different tokens. -/
theorem C27_toks_injective {e e' : Expr} (he : e.WF) (he' : e'.WF) (h : e.toks = e'.toks) : e = e' := by
  have hf : ∀ e : Expr, e.Follow [] := fun e => ⟨fun _ => rfl, fun _ => NoSlot.nil⟩
  exact (C27_unambiguous he he' (hf e) (hf e') (rest := []) (rest' := []) (by rw [h])).1

/-- A token of the given type, for examples. -/
def tok (ty : TokenType) : Token :=
  { tokenType := ty, range := { start := ⟨1, 1, 0, 0⟩, stop := ⟨1, 1, 0, 0⟩ } }

-- `ALL OF x 'Z y AN NOT x MKAY` is well formed and `AN` cannot extend it
example : ∃ e : Expr, e.WF ∧ e.Follow [tok (.keyword .AN)] ∧ e.toks.map (·.tokenType) =
    [.keyword .ALL_OF, .identifier ['x'], .bukkitSlotAccess, .identifier ['y'], .keyword .AN, .keyword .NOT,
      .identifier ['x'], .keyword .MKAY] := by
  refine ⟨.nary (.allOf (tok (.keyword .ALL_OF)))
    [.mk (.value (.variableAccess ⟨⟨tok (.identifier ['x']), none⟩,
        [⟨tok .bukkitSlotAccess, ⟨tok (.identifier ['y']), none⟩⟩]⟩)) (some (tok (.keyword .AN))),
      .mk (.unary (.not (tok (.keyword .NOT)))
        (.value (.variableAccess ⟨⟨tok (.identifier ['x']), none⟩, []⟩))) none]
    (some (tok (.keyword .MKAY))), ?_, ?_, ?_⟩
  · simp [Expr.WF, wfOperands, Token.Is, tok, NaryOpt.token, NaryOpt.keyword, UnaryOpt.token, UnaryOpt.keyword,
      VariableAccess.WF, Identifier.WF, VariableAccessSlot.WF, Token.IsIdent, Expr.Open]
  · simp [Expr.Follow, Expr.Open, Expr.EndsInAccess]
  · simp [Expr.toks, toksOperands, ExprValue.toks, VariableAccess.toks, Identifier.toks,
      VariableAccessSlot.toks, tok, NaryOpt.token, UnaryOpt.token]

/-! ## C30: operators -/

theorem BinaryOpt.eq_of {a b : BinaryOpt} (h : a.token = b.token) (hk : a.keyword = b.keyword) : a = b := by
  cases a <;> cases b <;> simp_all [BinaryOpt.token, BinaryOpt.keyword]

theorem UnaryOpt.eq_of {a b : UnaryOpt} (h : a.token = b.token) : a = b := by
  cases a; cases b; simp_all [UnaryOpt.token]

theorem NaryOpt.eq_of {a b : NaryOpt} (h : a.token = b.token) (hk : a.keyword = b.keyword) : a = b := by
  cases a <;> cases b <;> simp_all [NaryOpt.token, NaryOpt.keyword]

/-- The kind of a well formed expression is decided by its first token. -/
theorem Expr.WF.kind {e : Expr} (he : e.WF) {t : Token} {ts : List Token} (ht : e.toks = t :: ts) :
    (∃ v, e = .value v ∧ (t.IsIdent ∨ t.Is .SRS ∨ t.IsLiteral)) ∨
    (∃ op x, e = .unary op x ∧ t = op.token ∧ t.Is op.keyword) ∨
    (∃ op l an r, e = .binary op l an r ∧ t = op.token ∧ t.Is op.keyword) ∨
    (∃ op es mkay, e = .nary op es mkay ∧ t = op.token ∧ t.Is op.keyword) := by
  cases e with
  | value v =>
    refine .inl ⟨v, rfl, ?_⟩
    cases v with
    | variableAccess v =>
      obtain ⟨⟨n, srs⟩, ss⟩ := v
      obtain ⟨⟨h1, h2⟩, -⟩ := he
      cases srs with
      | none =>
        simp [Expr.toks, ExprValue.toks, VariableAccess.toks, Identifier.toks] at ht
        exact .inl (ht.1 ▸ h1)
      | some s =>
        simp [Expr.toks, ExprValue.toks, VariableAccess.toks, Identifier.toks] at ht
        exact .inr (.inl (ht.1 ▸ h2 s rfl))
    | literal u =>
      simp [Expr.toks, ExprValue.toks] at ht
      exact .inr (.inr (ht.1 ▸ he))
  | unary op x =>
    simp [Expr.toks] at ht
    exact .inr (.inl ⟨op, x, rfl, ht.1.symm, ht.1 ▸ he.1⟩)
  | binary op l an r =>
    simp [Expr.toks] at ht
    exact .inr (.inr (.inl ⟨op, l, an, r, rfl, ht.1.symm, ht.1 ▸ he.1⟩))
  | nary op es mkay =>
    simp [Expr.toks] at ht
    exact .inr (.inr (.inr ⟨op, es, mkay, rfl, ht.1.symm, ht.1 ▸ he.1⟩))

theorem parsed_kind {tokens : List Token} {s s' : StatementIterator} (hs : Reachable tokens s) {n : Nat}
    {first : Token} {e : Expr} (h : (parseExpr n first).run ops s = .ok e s') :
    e.WF ∧ ∃ ts, e.toks = first :: ts := by
  obtain ⟨h1, -, h2, -⟩ := C26_sound hs h
  obtain ⟨t, ts, ht⟩ := e.toks_ne
  rw [ht, List.cons_append, List.cons.injEq] at h1
  exact ⟨h2, ts, h1.1 ▸ ht⟩

/-- **C30** A binary operator keyword gives the operation of that name, holding the token. -/
theorem C30_binary {tokens : List Token} {s s' : StatementIterator} (hs : Reachable tokens s) {n : Nat}
    {op : BinaryOpt} {e : Expr} (hop : op.token.tokenType = .keyword op.keyword)
    (h : (parseExpr n op.token).run ops s = .ok e s') : ∃ l an r, e = .binary op l an r := by
  obtain ⟨h1, ts, h2⟩ := parsed_kind hs h
  rcases h1.kind h2 with ⟨v, -, hv⟩ | ⟨o, x, -, -, hk⟩ | ⟨o, l, an, r, rfl, ht, hk⟩ | ⟨o, es, mkay, -, -, hk⟩
  · exfalso
    cases op <;> simp_all [Token.IsIdent, Token.Is, Token.IsLiteral, BinaryOpt.keyword]
  · exfalso
    cases o <;> cases op <;> simp_all [Token.Is, BinaryOpt.keyword, UnaryOpt.keyword]
  · refine ⟨l, an, r, ?_⟩
    rw [BinaryOpt.eq_of ht]
    rw [Token.Is, hop, TokenType.keyword.injEq] at hk
    exact hk
  · exfalso
    cases o <;> cases op <;> simp_all [Token.Is, BinaryOpt.keyword, NaryOpt.keyword]

example : ∃ t rest s s' e, tokenize chars!"BOTH SAEM x y" = .ok (.ok (t :: rest)) ∧ Reachable (t :: rest) s ∧
    (BinaryOpt.bothSaem t).token.tokenType = .keyword (BinaryOpt.bothSaem t).keyword ∧
    (parseExpr 10 (BinaryOpt.bothSaem t).token).run ops s = .ok e s' :=
  ⟨_, _, _, _, _, rfl, .next .new, rfl, rfl⟩

/-- **C30** The same for `NOT`. -/
theorem C30_unary {tokens : List Token} {s s' : StatementIterator} (hs : Reachable tokens s) {n : Nat}
    {op : UnaryOpt} {e : Expr} (hop : op.token.tokenType = .keyword op.keyword)
    (h : (parseExpr n op.token).run ops s = .ok e s') : ∃ x, e = .unary op x := by
  obtain ⟨h1, ts, h2⟩ := parsed_kind hs h
  rcases h1.kind h2 with ⟨v, -, hv⟩ | ⟨o, x, rfl, ht, hk⟩ | ⟨o, l, an, r, -, -, hk⟩ | ⟨o, es, mkay, -, -, hk⟩
  · exfalso
    cases op <;> simp_all [Token.IsIdent, Token.Is, Token.IsLiteral, UnaryOpt.keyword]
  · exact ⟨x, by rw [UnaryOpt.eq_of ht]⟩
  · exfalso
    cases o <;> cases op <;> simp_all [Token.Is, BinaryOpt.keyword, UnaryOpt.keyword]
  · exfalso
    cases o <;> cases op <;> simp_all [Token.Is, UnaryOpt.keyword, NaryOpt.keyword]

example : ∃ t rest s s' e, tokenize chars!"NOT x y" = .ok (.ok (t :: rest)) ∧ Reachable (t :: rest) s ∧
    (UnaryOpt.not t).token.tokenType = .keyword (UnaryOpt.not t).keyword ∧
    (parseExpr 10 (UnaryOpt.not t).token).run ops s = .ok e s' :=
  ⟨_, _, _, _, _, rfl, .next .new, rfl, rfl⟩

/-- **C30** The same for `ALL OF`, `ANY OF` and `SMOOSH`. -/
theorem C30_nary {tokens : List Token} {s s' : StatementIterator} (hs : Reachable tokens s) {n : Nat}
    {op : NaryOpt} {e : Expr} (hop : op.token.tokenType = .keyword op.keyword)
    (h : (parseExpr n op.token).run ops s = .ok e s') : ∃ es mkay, e = .nary op es mkay := by
  obtain ⟨h1, ts, h2⟩ := parsed_kind hs h
  rcases h1.kind h2 with ⟨v, -, hv⟩ | ⟨o, x, -, -, hk⟩ | ⟨o, l, an, r, -, -, hk⟩ | ⟨o, es, mkay, rfl, ht, hk⟩
  · exfalso
    cases op <;> simp_all [Token.IsIdent, Token.Is, Token.IsLiteral, NaryOpt.keyword]
  · exfalso
    cases o <;> cases op <;> simp_all [Token.Is, NaryOpt.keyword, UnaryOpt.keyword]
  · exfalso
    cases o <;> cases op <;> simp_all [Token.Is, NaryOpt.keyword, BinaryOpt.keyword]
  · refine ⟨es, mkay, ?_⟩
    rw [NaryOpt.eq_of ht]
    rw [Token.Is, hop, TokenType.keyword.injEq] at hk
    exact hk

example : ∃ t rest s s' e, tokenize chars!"ALL OF x y" = .ok (.ok (t :: rest)) ∧ Reachable (t :: rest) s ∧
    (NaryOpt.allOf t).token.tokenType = .keyword (NaryOpt.allOf t).keyword ∧
    (parseExpr 10 (NaryOpt.allOf t).token).run ops s = .ok e s' :=
  ⟨_, _, _, _, _, rfl, .next .new, rfl, rfl⟩

/-- The keywords that name an operator. -/
def operatorKeywords : List Keyword :=
  [.BOTH_OF, .EITHER_OF, .WON_OF, .NOT, .ALL_OF, .ANY_OF, .SUM_OF, .DIFF_OF, .PRODUKT_OF, .QUOSHUNT_OF, .MOD_OF,
    .BIGGR_OF, .SMALLR_OF, .BOTH_SAEM, .DIFFRINT, .SMOOSH]

/-- **C30** After each operator keyword an expression is parsed if identifiers follow it. -/
theorem C30_accepted {tokens : List Token} {s : StatementIterator} (hs : Reachable tokens s) {n : Nat}
    {k : Keyword} {t x y : Token} (hk : k ∈ operatorKeywords) (ht : t.tokenType = .keyword k)
    (hst : s.statement 0 = [x, y]) (hx : x.IsIdent) (hy : y.IsIdent) (hn : 4 ≤ n) :
    ∃ e s', (parseExpr n t).run ops s = .ok e s' := by
  let v : Token → Expr := fun t => .value (.variableAccess ⟨⟨t, none⟩, []⟩)
  have hv : ∀ t, t.IsIdent → (v t).WF := fun t ht => ⟨⟨ht, by simp⟩, by simp⟩
  have fin : ∀ (e : Expr) rest, e.WF → e.Follow rest → t :: [x, y] = e.toks ++ rest →
      ∃ e s', (parseExpr n t).run ops s = .ok e s' := fun e rest h1 h2 h3 => by
    obtain ⟨s', h, -⟩ := C27_complete hs (e := e) (rest := rest) h1 h2 (by rw [hst]; exact h3)
      (by rw [hst]; exact hn)
    exact ⟨e, s', h⟩
  have bin : ∀ op : BinaryOpt, op.token = t → op.keyword = k → ∃ e s', (parseExpr n t).run ops s = .ok e s' :=
    fun op h1 h2 => fin (.binary op (v x) none (v y)) []
      ⟨by rw [h1, h2]; exact ht, hv x hx, by simp [v, Expr.Open], by simp, hv y hy⟩
      ⟨by simp, fun _ => NoSlot.nil⟩
      (by simp [v, Expr.toks, ExprValue.toks, VariableAccess.toks, Identifier.toks, h1])
  have nary : ∀ op : NaryOpt, op.token = t → op.keyword = k → ∃ e s', (parseExpr n t).run ops s = .ok e s' :=
    fun op h1 h2 => fin (.nary op [.mk (v x) none, .mk (v y) none] none) []
      ⟨by rw [h1, h2]; exact ht, by simp [wfOperands, hv x hx, hv y hy, v, Expr.Open], by simp⟩
      ⟨by simp, fun _ => NoSlot.nil⟩
      (by simp [v, Expr.toks, toksOperands, ExprValue.toks, VariableAccess.toks, Identifier.toks, h1])
  simp only [operatorKeywords, List.mem_cons, List.not_mem_nil, or_false] at hk
  rcases hk with rfl | rfl | rfl | rfl | rfl | rfl | rfl | rfl | rfl | rfl | rfl | rfl | rfl | rfl | rfl | rfl
  · exact bin (.bothOf t) rfl rfl
  · exact bin (.eitherOf t) rfl rfl
  · exact bin (.wonOf t) rfl rfl
  · obtain ⟨yn, hyn⟩ := hy
    exact fin (.unary (.not t) (v x)) [y] ⟨ht, hv x hx⟩
      ⟨by simp [Expr.Open, v], fun _ => by simp [NoSlot.cons_iff, hyn]⟩
      (by simp [v, Expr.toks, ExprValue.toks, VariableAccess.toks, Identifier.toks, UnaryOpt.token])
  · exact nary (.allOf t) rfl rfl
  · exact nary (.anyOf t) rfl rfl
  · exact bin (.sumOf t) rfl rfl
  · exact bin (.diffOf t) rfl rfl
  · exact bin (.produktOf t) rfl rfl
  · exact bin (.quoshuntOf t) rfl rfl
  · exact bin (.modOf t) rfl rfl
  · exact bin (.biggrOf t) rfl rfl
  · exact bin (.smallrOf t) rfl rfl
  · exact bin (.bothSaem t) rfl rfl
  · exact bin (.diffrint t) rfl rfl
  · exact nary (.smoosh t) rfl rfl

example : ∃ t x y s, tokenize chars!"DIFFRINT x y" = .ok (.ok [t, x, y]) ∧ Reachable [t, x, y] s ∧
    Keyword.DIFFRINT ∈ operatorKeywords ∧ t.tokenType = .keyword .DIFFRINT ∧ s.statement 0 = [x, y] ∧ x.IsIdent ∧
    y.IsIdent :=
  ⟨_, _, _, _, rfl, .next .new, by decide, rfl, rfl, ⟨_, rfl⟩, ⟨_, rfl⟩⟩

/-- **C30** A token that is no identifier, literal, operator keyword, `SRS`, `NOOB` or `MAEK` does not start an
expression: it is reported as unexpected and nothing is consumed. -/
theorem C30_rejected {s : StatementIterator} {n : Nat} {t : Token} (h1 : ¬ t.IsIdent) (h2 : ¬ t.IsLiteral)
    (h3 : ∀ k, t.tokenType = .keyword k → k ∉ Keyword.SRS :: Keyword.MAEK :: operatorKeywords) :
    (parseExpr (n + 1) t).run ops s = .err (.unexpectedToken t) s := by
  unfold parseExpr
  split
  case h_1 => rename_i h; exact absurd ⟨_, h⟩ h1
  case h_3 => rename_i h; exact absurd (.inl ⟨_, h⟩) h2
  case h_4 => rename_i h; exact absurd (.inr h) h2
  case h_22 => rfl
  all_goals
    rename_i h
    exact absurd (h3 _ h) (by simp [operatorKeywords])

-- the statement `SUM OF x y`, and `GTFO` where an expression should be
example : ∃ first rest s, tokenize chars!"SUM OF x y" = .ok (.ok (first :: rest)) ∧
    Reachable (first :: rest) s ∧ first.tokenType = .keyword .SUM_OF ∧
    (s.statement 0).map (·.tokenType) = [.identifier ['x'], .identifier ['y']] := by
  refine ⟨_, _, _, rfl, .next .new, rfl, ?_⟩
  decide +kernel

example : ¬ (tok (.keyword .GTFO)).IsIdent ∧ ¬ (tok (.keyword .GTFO)).IsLiteral ∧
    ∀ k, (tok (.keyword .GTFO)).tokenType = .keyword k →
      k ∉ Keyword.SRS :: Keyword.MAEK :: operatorKeywords := by
  refine ⟨by simp [Token.IsIdent, tok], by simp [Token.IsLiteral, Token.Is, tok], ?_⟩
  intro k hk
  simp [tok] at hk
  subst hk
  decide

end Lol
