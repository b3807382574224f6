import Verif.Parser.ExprLemmas

/-! # Expressions are parsed back from their tokens: lemmas -/

namespace Lol

/-! ## Identifiers and variable accesses -/

theorem Identifier.parse_complete (i : Identifier) (hi : i.WF) (rest : List Token) (later : List (List Token)) :
    ∃ t ts, i.toks = t :: ts ∧ ts.length ≤ 1 ∧ VariableAccess.isValid t = true ∧
      exec (Identifier.parse t) ⟨ts ++ rest, later⟩ = .ok i ⟨rest, later⟩ := by
  obtain ⟨name, srs⟩ := i
  obtain ⟨⟨n, hn⟩, hs⟩ := hi
  cases srs with
  | none =>
    refine ⟨name, [], rfl, by simp, ?_, ?_⟩
    · simp only at hn; simp [VariableAccess.isValid, hn]
    · simp only at hn
      simp [Identifier.parse, hn]
  | some s =>
    have hs : s.tokenType = .keyword .SRS := hs s rfl
    simp only at hn
    refine ⟨s, [name], rfl, by simp, ?_, ?_⟩
    · simp [VariableAccess.isValid, hs]
    · simp [Identifier.parse, hs, hn]

theorem NoSlot.cons_iff {t : Token} {r : List Token} : NoSlot (t :: r) ↔ t.tokenType ≠ .bukkitSlotAccess := by
  constructor
  · intro h; exact h t r rfl
  · intro h t' r' e
    cases e
    exact h

theorem NoSlot.nil : NoSlot [] := by simp [NoSlot]

theorem VariableAccess.parseSlots_complete (ss : List VariableAccessSlot) (hs : ∀ s ∈ ss, s.WF)
    (rest : List Token) (hr : NoSlot rest) (later : List (List Token)) (n : Nat)
    (hn : (ss.flatMap (·.toks)).length < n) :
    exec (VariableAccess.parseSlots n) ⟨ss.flatMap (·.toks) ++ rest, later⟩ = .ok ss ⟨rest, later⟩ := by
  induction ss generalizing n with
  | nil =>
    cases n with
    | zero => simp at hn
    | succ n =>
      cases rest with
      | nil => simp [VariableAccess.parseSlots]
      | cons t r =>
        have := hr t r rfl
        simp [VariableAccess.parseSlots, this]
  | cons s ss ih =>
    cases n with
    | zero => simp at hn
    | succ n =>
      obtain ⟨tok, i⟩ := s
      obtain ⟨h1, h2⟩ := hs _ List.mem_cons_self
      simp only at h1
      obtain ⟨t, ts, h3, h4, -, h5⟩ := Identifier.parse_complete i h2 (ss.flatMap (·.toks) ++ rest) later
      have h6 : (VariableAccessSlot.mk tok i).toks = tok :: t :: ts := by simp [VariableAccessSlot.toks, h3]
      simp only [List.flatMap_cons, h6, List.cons_append, List.length_cons,
        List.length_append] at hn ⊢
      have ih := ih (fun s h => hs s (List.mem_cons_of_mem _ h)) n (by omega)
      simp only [VariableAccess.parseSlots, exec_bind, exec_nextIf_cons, h1, decide_true, if_true,
        Res.andThen_ok, exec_next_cons, List.append_assoc, h5, ih, exec_pure]

theorem VariableAccess.parse_complete (v : VariableAccess) (hv : v.WF) (rest : List Token) (hr : NoSlot rest)
    (later : List (List Token)) :
    ∃ t ts, v.toks = t :: ts ∧ VariableAccess.isValid t = true ∧ ∀ n, ts.length < n →
      exec (VariableAccess.parse n t) ⟨ts ++ rest, later⟩ = .ok v ⟨rest, later⟩ := by
  obtain ⟨i, ss⟩ := v
  obtain ⟨hi, hs⟩ := hv
  obtain ⟨t, ts, h3, h4, h6, h5⟩ := Identifier.parse_complete i hi (ss.flatMap (·.toks) ++ rest) later
  refine ⟨t, ts ++ ss.flatMap (·.toks), by simp [VariableAccess.toks, h3], h6, fun n hn => ?_⟩
  have := VariableAccess.parseSlots_complete ss hs rest hr later n
    (by rw [List.length_append] at hn; omega)
  simp only [VariableAccess.parse, exec_bind, List.append_assoc, h5, Res.andThen_ok, this, exec_pure]

/-! ## Expressions -/

theorem Identifier.toks_ne (i : Identifier) : ∃ t ts, i.toks = t :: ts := by
  obtain ⟨n, _ | s⟩ := i
  · exact ⟨n, [], rfl⟩
  · exact ⟨s, [n], rfl⟩

theorem Expr.toks_ne (e : Expr) : ∃ t ts, e.toks = t :: ts := by
  cases e with
  | value v =>
    cases v with
    | variableAccess v =>
      obtain ⟨t, ts, h⟩ := v.identifier.toks_ne
      exact ⟨t, _, by rw [Expr.toks, ExprValue.toks, VariableAccess.toks, h, List.cons_append]⟩
    | literal t => exact ⟨t, [], rfl⟩
  | unary op e => exact ⟨op.token, _, by rw [Expr.toks]⟩
  | binary op l an r => exact ⟨op.token, _, by rw [Expr.toks]⟩
  | nary op es mkay => exact ⟨op.token, _, by rw [Expr.toks]⟩

/-- The first token of a well formed expression is neither `AN` nor `MKAY`, nor a slot access nor `!`. -/
theorem Expr.G_first {e : Expr} {rest : List Token} (h : e.G rest) {t : Token} {ts : List Token}
    (ht : e.toks = t :: ts) :
    t.tokenType ≠ .keyword .AN ∧ t.tokenType ≠ .keyword .MKAY ∧ t.tokenType ≠ .bukkitSlotAccess ∧
      t.tokenType ≠ .exclamationMark := by
  cases e with
  | value v =>
    cases v with
    | variableAccess v =>
      simp only [Expr.G] at h
      obtain ⟨⟨n, srs⟩, ss⟩ := v
      obtain ⟨⟨⟨⟨x, hn⟩, hs⟩, -⟩, -⟩ := h
      cases srs with
      | none =>
        simp [Expr.toks, ExprValue.toks, VariableAccess.toks, Identifier.toks] at ht
        obtain ⟨rfl, -⟩ := ht
        simp only at hn
        simp [hn]
      | some s =>
        simp [Expr.toks, ExprValue.toks, VariableAccess.toks, Identifier.toks] at ht
        obtain ⟨rfl, -⟩ := ht
        have : s.tokenType = .keyword .SRS := hs s rfl
        simp [this]
    | literal u =>
      simp [Expr.toks, ExprValue.toks] at ht
      obtain ⟨rfl, -⟩ := ht
      rcases h with ⟨v, h⟩ | h
      · simp [h]
      · have h : u.tokenType = _ := h
        simp [h]
  | unary op e =>
    simp [Expr.toks] at ht
    obtain ⟨rfl, -⟩ := ht
    have h : op.token.tokenType = _ := h.1
    cases op
    simp [h, UnaryOpt.keyword]
  | binary op l an r =>
    simp [Expr.toks] at ht
    obtain ⟨rfl, -⟩ := ht
    have h : op.token.tokenType = _ := h.1
    cases op <;> simp [h, BinaryOpt.keyword]
  | nary op es mkay =>
    simp [Expr.toks] at ht
    obtain ⟨rfl, -⟩ := ht
    have h : op.token.tokenType = _ := h.1
    cases op <;> simp [h, NaryOpt.keyword]

theorem parseExpr_binary (n : Nat) (op : BinaryOpt) (h : op.token.Is op.keyword) :
    parseExpr (n + 1) op.token = parseBinary (parseExpr n) op := by
  cases op <;>
    (simp only [Token.Is, BinaryOpt.token, BinaryOpt.keyword] at h
     simp only [parseExpr, BinaryOpt.token, h])

theorem parseExpr_unary (n : Nat) (op : UnaryOpt) (h : op.token.Is op.keyword) :
    parseExpr (n + 1) op.token = parseUnary (parseExpr n) op := by
  cases op
  simp only [Token.Is, UnaryOpt.token, UnaryOpt.keyword] at h
  simp only [parseExpr, UnaryOpt.token, h]

theorem parseExpr_nary (n : Nat) (op : NaryOpt) (h : op.token.Is op.keyword) :
    parseExpr (n + 1) op.token = parseNary (parseExpr n) n op := by
  cases op <;>
    (simp only [Token.Is, NaryOpt.token, NaryOpt.keyword] at h
     simp only [parseExpr, NaryOpt.token, h])

theorem exec_nextIf_toList {f : Token → Bool} {an : Option Token} (hf : ∀ t ∈ an, f t = true)
    {cur : List Token} {later : List (List Token)} (hc : an = none → ∀ t r, cur = t :: r → f t = false) :
    exec (nextIf f) ⟨an.toList ++ cur, later⟩ = .ok an ⟨cur, later⟩ := by
  cases an with
  | some t => simp [hf t rfl]
  | none =>
    cases cur with
    | nil => simp
    | cons t r => simp [hc rfl t r rfl]

theorem exec_nextIfEq_toList {ty : TokenType} {an : Option Token} (hf : ∀ t ∈ an, t.tokenType = ty)
    {cur : List Token} {later : List (List Token)}
    (hc : an = none → ∀ t r, cur = t :: r → t.tokenType ≠ ty) :
    exec (nextIfTokenTypeEq ty) ⟨an.toList ++ cur, later⟩ = .ok an ⟨cur, later⟩ := by
  cases an with
  | some t => simp [hf t rfl]
  | none =>
    cases cur with
    | nil => simp
    | cons t r => simp [hc rfl t r rfl]

mutual

theorem parseExpr_complete (e : Expr) (rest : List Token) (later : List (List Token)) (n : Nat) (first : Token)
    (tail : List Token) (ht : e.toks = first :: tail) (hg : e.G rest)
    (hn : tail.length + rest.length + 2 ≤ n) :
    exec (parseExpr n first) ⟨tail ++ rest, later⟩ = .ok e ⟨rest, later⟩ := by
  match n, hn with
  | n + 1, hn =>
    match e, ht, hg with
    | .value (.variableAccess v), ht, hg =>
      obtain ⟨h1, h2⟩ := hg
      obtain ⟨t, ts, h3, h4, h5⟩ := VariableAccess.parse_complete v h1 rest h2 later
      rw [Expr.toks, ExprValue.toks, h3] at ht
      cases ht
      have h6 := h5 n (by omega)
      have : parseExpr (n + 1) first = (do
          let v ← VariableAccess.parse n first
          pure (.value (.variableAccess v))) := by
        unfold VariableAccess.isValid at h4
        split at h4
        · rename_i h; simp only [parseExpr, h]
        · rename_i h; simp only [parseExpr, h]
        · cases h4
      rw [this]
      simp only [exec_bind, h6, Res.andThen_ok, exec_pure]
    | .value (.literal t), ht, hg =>
      cases ht
      rcases hg with ⟨v, h⟩ | h
      · simp [parseExpr, h]
      · simp only [Token.Is] at h
        simp [parseExpr, h]
    | .unary op e, ht, hg =>
      obtain ⟨h1, h2⟩ := hg
      obtain ⟨t, ts, h3⟩ := e.toks_ne
      rw [Expr.toks, h3] at ht
      cases ht
      simp only [List.length_cons] at hn
      have ih := parseExpr_complete e rest later n t ts h3 h2 (by omega)
      rw [parseExpr_unary n op h1]
      simp only [parseUnary, exec_bind, List.cons_append, exec_next_cons, Res.andThen_ok, ih, exec_pure]
    | .binary op l an r, ht, hg =>
      obtain ⟨h1, h2, h3, h4⟩ := hg
      obtain ⟨t, ts, h5⟩ := l.toks_ne
      obtain ⟨u, us, h6⟩ := r.toks_ne
      rw [Expr.toks, h5, h6] at ht
      cases ht
      simp only [List.length_cons, List.length_append, List.cons_append] at hn
      have ihl := parseExpr_complete l _ later n t ts h5 h2 (by simp [h6]; omega)
      have ihr := parseExpr_complete r rest later n u us h6 h4 (by omega)
      have han : exec (nextIf (Token.isKeyword .AN)) ⟨an.toList ++ (u :: us ++ rest), later⟩ =
          .ok an ⟨u :: us ++ rest, later⟩ := by
        apply exec_nextIf_toList
        · intro t ht
          have : t.tokenType = _ := h3 t ht
          simp [Token.isKeyword, this]
        · intro _ t r hr
          cases hr
          have := (Expr.G_first h4 h6).1
          simp [Token.isKeyword, this]
      rw [parseExpr_binary n op h1]
      rw [h6] at ihl
      simp only [List.cons_append] at ihl han
      simp only [parseBinary, exec_bind, List.cons_append, exec_next_cons, Res.andThen_ok, List.append_assoc,
        ihl, han, ihr, exec_pure]
    | .nary op es mkay, ht, hg =>
      obtain ⟨h1, h2, h3, h4⟩ := hg
      rw [Expr.toks] at ht
      cases ht
      simp only [List.length_append] at hn
      have hrest : ∀ t r, mkay.toList ++ rest = t :: r → t.Is .MKAY := by
        intro t r hr
        cases mkay with
        | none => rw [h4 rfl] at hr; cases hr
        | some m => simp at hr; exact hr.1 ▸ h3 m rfl
      have ih := parseOperands_complete es (mkay.toList ++ rest) later n n h2 hrest (by simp; omega)
        (by simp; omega)
      rw [parseExpr_nary n op h1]
      simp only [parseNary, exec_bind, List.append_assoc, ih, Res.andThen_ok]
      cases mkay with
      | none => rw [h4 rfl]; simp
      | some m => simp

theorem parseOperands_complete (es : List Operand) (rest : List Token) (later : List (List Token)) (n m : Nat)
    (hg : GOperands es rest) (hr : ∀ t r, rest = t :: r → t.Is .MKAY)
    (hm : (toksOperands es).length + rest.length < m) (hn : (toksOperands es).length + rest.length + 1 ≤ n) :
    exec (parseOperands (parseExpr n) m) ⟨toksOperands es ++ rest, later⟩ = .ok es ⟨rest, later⟩ := by
  match m, hm with
  | m + 1, hm =>
    match es, hg with
    | [], hg =>
      cases rest with
      | nil => simp [parseOperands, toksOperands]
      | cons t r =>
        have : t.tokenType = _ := hr t r rfl
        simp [parseOperands, toksOperands, this]
    | .mk e an :: es, hg =>
      obtain ⟨h1, h2, h3⟩ := hg
      obtain ⟨t, ts, h4⟩ := e.toks_ne
      simp only [toksOperands, h4, List.length_append, List.length_cons, List.cons_append] at hm hn ⊢
      have ihe := parseExpr_complete e _ later n t ts h4 h1 (by simp; omega)
      have ihs := parseOperands_complete es rest later n m h3 hr (by omega) (by omega)
      have hne := (Expr.G_first h1 h4).2.1
      have han : exec (nextIfTokenTypeEq (.keyword .AN)) ⟨an.toList ++ (toksOperands es ++ rest), later⟩ =
          .ok an ⟨toksOperands es ++ rest, later⟩ := by
        apply exec_nextIfEq_toList h2
        intro _ t r htr
        match es, h3 with
        | [], _ =>
          have : t.tokenType = _ := hr t r (by simpa [toksOperands] using htr)
          simp [this]
        | .mk e' an' :: es', h3 =>
          obtain ⟨t', ts', h5⟩ := e'.toks_ne
          simp only [toksOperands, h5, List.cons_append, List.cons.injEq] at htr
          rw [← htr.1]
          exact (Expr.G_first h3.1 h5).1
      simp only [parseOperands, exec_bind, exec_nextIfTokenTypeNe_cons, hne, if_false, Res.andThen_ok,
        List.append_assoc, ihe, han, ihs, exec_pure]

end

/-! ## The declarative form of `G` -/

theorem NoSlot.of_G {e : Expr} {rest : List Token} (h : e.G rest) (r : List Token) : NoSlot (e.toks ++ r) := by
  obtain ⟨t, ts, ht⟩ := e.toks_ne
  rw [ht, List.cons_append, NoSlot.cons_iff]
  exact (Expr.G_first h ht).2.2.1

theorem NoSlot.option {k : Keyword} {an : Option Token} (h : ∀ t ∈ an, t.Is k) {r : List Token} (hr : NoSlot r) :
    NoSlot (an.toList ++ r) := by
  cases an with
  | none => simpa using hr
  | some t =>
    have : t.tokenType = _ := h t rfl
    simp [NoSlot.cons_iff, this]

mutual

theorem Expr.G_iff (e : Expr) (rest : List Token) : e.G rest ↔ e.WF ∧ e.Follow rest := by
  match e with
  | .value (.variableAccess v) => simp [Expr.G, Expr.WF, Expr.Follow, Expr.Open, Expr.EndsInAccess]
  | .value (.literal t) => simp [Expr.G, Expr.WF, Expr.Follow, Expr.Open, Expr.EndsInAccess]
  | .unary op e =>
    have := Expr.G_iff e rest
    simp only [Expr.G, Expr.WF, this, and_assoc]
    simp [Expr.Follow, Expr.Open, Expr.EndsInAccess]
  | .binary op l an r =>
    have hl := Expr.G_iff l (an.toList ++ (r.toks ++ rest))
    have hr := Expr.G_iff r rest
    have hne : an.toList ++ (r.toks ++ rest) ≠ [] := by
      obtain ⟨t, ts, h⟩ := r.toks_ne
      simp [h]
    have hf : (Expr.binary op l an r).Follow rest ↔ r.Follow rest := by
      simp [Expr.Follow, Expr.Open, Expr.EndsInAccess]
    simp only [Expr.G, Expr.WF, hl, hf]
    constructor
    · rintro ⟨h1, ⟨h2, h3⟩, h4, h5⟩
      exact ⟨⟨h1, h2, fun ho => hne (h3.1 ho), h4, (hr.1 h5).1⟩, (hr.1 h5).2⟩
    · rintro ⟨⟨h1, h2, h3, h4, h5⟩, h6⟩
      have h7 := hr.2 ⟨h5, h6⟩
      exact ⟨h1, ⟨h2, fun ho => absurd ho h3, fun _ => NoSlot.option h4 (NoSlot.of_G h7 rest)⟩, h4, h7⟩
  | .nary op es mkay =>
    have hes := GOperands_iff es (mkay.toList ++ rest)
    have hf : (Expr.nary op es mkay).Follow rest ↔ (mkay = none → rest = []) := by
      simp [Expr.Follow, Expr.Open, Expr.EndsInAccess]
    simp only [Expr.G, Expr.WF, hf]
    constructor
    · rintro ⟨h1, h2, h3, h4⟩
      refine ⟨⟨h1, ?_, h3⟩, h4⟩
      cases mkay with
      | none => exact (hes false (by simp [h4]) (by simp [h4, NoSlot.nil])).1 h2
      | some m =>
        have : m.tokenType = _ := h3 m rfl
        exact (hes true (by simp) (by simp [NoSlot.cons_iff, this])).1 h2
    · rintro ⟨⟨h1, h2, h3⟩, h4⟩
      refine ⟨h1, ?_, h3, h4⟩
      cases mkay with
      | none => exact (hes false (by simp [h4]) (by simp [h4, NoSlot.nil])).2 h2
      | some m =>
        have : m.tokenType = _ := h3 m rfl
        exact (hes true (by simp) (by simp [NoSlot.cons_iff, this])).2 h2

theorem GOperands_iff (es : List Operand) (rest : List Token) (closed : Bool)
    (hc : closed = false ↔ rest = []) (hn : NoSlot rest) : GOperands es rest ↔ wfOperands es closed := by
  match es with
  | [] => simp [GOperands, wfOperands]
  | .mk e an :: es =>
    have he := Expr.G_iff e (an.toList ++ (toksOperands es ++ rest))
    have hes := GOperands_iff es rest closed hc hn
    simp only [GOperands, wfOperands, he, hes, Expr.Follow]
    have hnil : an.toList ++ (toksOperands es ++ rest) = [] ↔ an = none ∧ es = [] ∧ closed = false := by
      rw [hc]
      cases es with
      | nil => cases an <;> simp [toksOperands]
      | cons o es =>
        obtain ⟨e', an'⟩ := o
        obtain ⟨t, ts, h⟩ := e'.toks_ne
        simp [toksOperands, h]
    constructor
    · rintro ⟨⟨h1, h2, -⟩, h3, h4⟩
      exact ⟨h1, h3, fun ho => hnil.1 (h2 ho), h4⟩
    · rintro ⟨h1, h3, h2, h4⟩
      refine ⟨⟨h1, fun ho => hnil.2 (h2 ho), fun _ => ?_⟩, h3, h4⟩
      refine NoSlot.option h3 ?_
      have h5 := hes.2 h4
      match es, h5 with
      | [], _ => simpa [toksOperands] using hn
      | .mk e' an' :: es', h5 =>
        simp only [toksOperands, List.append_assoc]
        exact NoSlot.of_G h5.1 _

end

end Lol
