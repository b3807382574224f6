import Verif.Parser.FailLemmas

/-! # Failures of the parsers of simple statements: completeness -/

namespace Lol

/-- The outcome of a parser that fails with `f`, `s` being left. -/
def Fail.res {α : Type} (s : Stmts) : Fail → Res Stmts α
  | .error e => .err e s
  | .panic p => .panic p

@[simp] theorem Fail.res_andThen {α β : Type} (f : Fail) (s : Stmts) (g : α → Stmts → Res Stmts β) :
    (f.res s).andThen g = f.res s := by
  cases f <;> rfl

theorem IdentFail.complete {rest ts : List Token} {f : Fail} (h : IdentFail rest ts f)
    (later : List (List Token)) : ∃ t tail, ts = t :: tail ∧
      exec (Identifier.parse t) ⟨tail ++ rest, later⟩ = f.res ⟨rest, later⟩ := by
  cases h with
  | @notIdent t h1 h2 =>
    refine ⟨t, [], rfl, ?_⟩
    unfold Identifier.parse
    split
    · rename_i h; exact absurd ⟨_, h⟩ h1
    · rename_i h; exact absurd h h2
    · rfl
  | @srsEnd s h1 h2 =>
    subst h2
    refine ⟨s, [], rfl, ?_⟩
    unfold Identifier.parse
    rw [show s.tokenType = _ from h1]
    rfl
  | @srsNotIdent s t h1 h2 =>
    refine ⟨s, [t], rfl, ?_⟩
    unfold Identifier.parse
    rw [show s.tokenType = _ from h1]
    simp only [List.cons_append, List.nil_append, exec_bind, exec_next_cons, Res.andThen_ok]
    split
    · rename_i h; exact absurd ⟨_, h⟩ h2
    · rfl

theorem VariableAccess.parseSlots_prefix (ss : List VariableAccessSlot) (hs : ∀ s ∈ ss, s.WF) (cur : List Token)
    (later : List (List Token)) (n : Nat) :
    exec (VariableAccess.parseSlots (n + ss.length)) ⟨ss.flatMap (·.toks) ++ cur, later⟩ =
      (exec (VariableAccess.parseSlots n) ⟨cur, later⟩).andThen fun more s => .ok (ss ++ more) s := by
  induction ss with
  | nil =>
    simp only [List.length_nil, Nat.add_zero, List.flatMap_nil, List.nil_append]
    cases exec (VariableAccess.parseSlots n) ⟨cur, later⟩ <;> rfl
  | cons s ss ih =>
    obtain ⟨z, i⟩ := s
    have h1 := hs ⟨z, i⟩ List.mem_cons_self
    obtain ⟨hz, hi⟩ := h1
    dsimp only at hz hi
    have ih := ih fun s h => hs s (List.mem_cons_of_mem _ h)
    obtain ⟨t, ts, h3, -, h4, h5⟩ := Identifier.parse_complete i hi (ss.flatMap (·.toks) ++ cur) later
    simp only [List.length_cons, ← Nat.add_assoc, VariableAccess.parseSlots, List.flatMap_cons,
      VariableAccessSlot.toks, h3, List.cons_append, exec_bind, exec_nextIf_cons, hz, decide_true, if_true,
      Res.andThen_ok, exec_next_cons, List.append_assoc]
    have ih' : exec (VariableAccess.parseSlots (n + ss.length))
        ⟨List.flatMap (fun s => s.slotAccessToken :: s.identifier.toks) ss ++ cur, later⟩ = _ := ih
    have h5' : exec (Identifier.parse t)
        ⟨ts ++ (List.flatMap (fun s => s.slotAccessToken :: s.identifier.toks) ss ++ cur), later⟩ = _ := h5
    rw [h5', Res.andThen_ok]
    show (exec _ ⟨List.flatMap (fun s => s.slotAccessToken :: s.identifier.toks) ss ++ cur, later⟩).andThen _ = _
    rw [ih']
    cases exec (VariableAccess.parseSlots n) ⟨cur, later⟩ <;> rfl

theorem slots_length_le (ss : List VariableAccessSlot) : ss.length ≤ (ss.flatMap (·.toks)).length := by
  induction ss with
  | nil => simp
  | cons s ss ih =>
    rw [List.flatMap_cons, List.length_append, List.length_cons]
    have : 1 ≤ s.toks.length := by simp [VariableAccessSlot.toks]
    omega

theorem AccessFail.complete {rest ts : List Token} {f : Fail} (h : AccessFail rest ts f)
    (later : List (List Token)) : ∃ t tail, ts = t :: tail ∧ ∀ n, tail.length < n →
      exec (VariableAccess.parse n t) ⟨tail ++ rest, later⟩ = f.res ⟨rest, later⟩ := by
  have key : ∀ (v : VariableAccess) (z : Token) (us : List Token), v.WF → z.tokenType = .bukkitSlotAccess →
      (∀ m, exec (VariableAccess.parseSlots (m + 1)) ⟨z :: (us ++ rest), later⟩ = f.res ⟨rest, later⟩) →
      ∃ t tail, v.toks ++ z :: us = t :: tail ∧ ∀ n, tail.length < n →
        exec (VariableAccess.parse n t) ⟨tail ++ rest, later⟩ = f.res ⟨rest, later⟩ := by
    rintro ⟨i, ss⟩ z us ⟨hi, hs⟩ hz hsl
    obtain ⟨t, ts, h3, -, h4, h5⟩ :=
      Identifier.parse_complete i hi (ss.flatMap (·.toks) ++ (z :: (us ++ rest))) later
    refine ⟨t, ts ++ (ss.flatMap (·.toks) ++ (z :: us)), by simp [VariableAccess.toks, h3], fun n hn => ?_⟩
    have hlen : ss.length ≤ (ss.flatMap (·.toks)).length := by
      exact slots_length_le ss
    obtain ⟨m, rfl⟩ : ∃ m, n = m + 1 + ss.length := by
      simp only [List.length_append, List.length_cons] at hn
      exact ⟨n - ss.length - 1, by omega⟩
    simp only [VariableAccess.parse, exec_bind, List.append_assoc, List.cons_append, h5, Res.andThen_ok]
    rw [VariableAccess.parseSlots_prefix ss hs, hsl]
    simp
  cases h with
  | name h =>
    obtain ⟨t, tail, h1, h2⟩ := h.complete later
    refine ⟨t, tail, h1, fun n _ => ?_⟩
    simp [VariableAccess.parse, h2]
  | @slotEnd v z h1 h2 h3 =>
    subst h3
    refine key v z [] h1 h2 fun m => ?_
    simp only [List.nil_append, VariableAccess.parseSlots, exec_bind, exec_nextIf_cons, h2, decide_true, if_true,
      Res.andThen_ok, exec_next_nil]
    rfl
  | @slot v z us f h1 h2 h3 =>
    refine key v z us h1 h2 fun m => ?_
    obtain ⟨t, tail, rfl, h5⟩ := h3.complete later
    simp only [VariableAccess.parseSlots, exec_bind, exec_nextIf_cons, h2, decide_true, if_true,
      Res.andThen_ok, List.cons_append, exec_next_cons, h5, Fail.res_andThen]

/-! ## Expressions -/

theorem Expr.Follow.append {e : Expr} {ts : List Token} (h : e.Follow ts) (hne : ts ≠ []) (rest : List Token) :
    e.Follow (ts ++ rest) := by
  cases ts with
  | nil => exact absurd rfl hne
  | cons t r => exact h.head

theorem parseOperands_prefix (es : List Operand) (cur : List Token) (later : List (List Token)) (n m : Nat)
    (hb : Before es cur) (hn : (toksOperands es).length + cur.length + 1 ≤ n) :
    exec (parseOperands (parseExpr n) (m + es.length)) ⟨toksOperands es ++ cur, later⟩ =
      (exec (parseOperands (parseExpr n) m) ⟨cur, later⟩).andThen fun more s => .ok (es ++ more) s := by
  induction es with
  | nil =>
    simp only [List.length_nil, Nat.add_zero, toksOperands, List.nil_append]
    cases exec (parseOperands (parseExpr n) m) ⟨cur, later⟩ <;> rfl
  | cons o es ih =>
    obtain ⟨e, an⟩ := o
    obtain ⟨h1, h2, h3, h4, h5⟩ := hb
    obtain ⟨t, ts, h6, h7⟩ := parseExpr_complete' h1 h2 later
    simp only [toksOperands, h6, List.length_append, List.length_cons] at hn
    have ih := ih h5 (by omega)
    have hne := (Expr.G_first ((Expr.G_iff e _).2 ⟨h1, h2⟩) h6).2.1
    have h8 := h7 n (by simp only [List.length_append]; omega)
    have h9 := exec_nextIfEq_toList (ty := .keyword .AN) (an := an) h3
      (cur := toksOperands es ++ cur) (later := later) h4
    simp only [List.length_cons, ← Nat.add_assoc, parseOperands, toksOperands, h6, List.cons_append,
      List.append_assoc, exec_bind, exec_nextIfTokenTypeNe_cons, hne, if_false, Res.andThen_ok, h8, h9, ih]
    cases exec (parseOperands (parseExpr n) m) ⟨cur, later⟩ <;> rfl

theorem ExprFail.complete {rest ts : List Token} {f : Fail} (h : ExprFail rest ts f)
    (later : List (List Token)) : ∃ t tail, ts = t :: tail ∧ ∀ n, tail.length + rest.length + 2 ≤ n →
      exec (parseExpr n t) ⟨tail ++ rest, later⟩ = f.res ⟨rest, later⟩ := by
  induction h with
  | @start t h =>
    refine ⟨t, [], rfl, fun n hn => ?_⟩
    cases n with
    | zero => omega
    | succ n =>
      unfold parseExpr
      split <;> first
        | rfl
        | (rename_i h'; exact (h (.inr (.inr ⟨_, by decide, h'⟩))).elim)
        | (rename_i h'; exact (h (.inl ⟨_, h'⟩)).elim)
        | (rename_i h'; exact (h (.inr (.inl ⟨_, h'⟩))).elim)
  | @maek t h =>
    refine ⟨t, [], rfl, fun n hn => ?_⟩
    cases n with
    | zero => omega
    | succ n =>
      unfold parseExpr
      rw [show t.tokenType = _ from h]
      rfl
  | @access ts f h1 h2 =>
    obtain ⟨t, tail, rfl, h3⟩ := h2.complete later
    refine ⟨t, tail, rfl, fun n hn => ?_⟩
    obtain ⟨t', r', h4, h5⟩ := h1
    cases h4
    cases n with
    | zero => omega
    | succ n =>
      have h3 := h3 n (by omega)
      unfold parseExpr
      rcases h5 with ⟨x, h5⟩ | h5
      · rw [h5]
        simp [h3]
      · rw [show t.tokenType = _ from h5]
        simp [h3]
  | @unaryEnd op h1 h2 =>
    subst h2
    refine ⟨op.token, [], rfl, fun n hn => ?_⟩
    cases n with
    | zero => omega
    | succ n =>
      rw [parseExpr_unary n op h1]
      simp [parseUnary, Fail.res]
  | @unary op ts f h1 h2 ih =>
    obtain ⟨t, tail, rfl, h3⟩ := ih
    refine ⟨op.token, _, rfl, fun n hn => ?_⟩
    cases n with
    | zero => omega
    | succ n =>
      simp only [List.length_cons] at hn
      rw [parseExpr_unary n op h1]
      simp [parseUnary, h3 n (by omega)]
  | @binaryEnd op h1 h2 =>
    subst h2
    refine ⟨op.token, [], rfl, fun n hn => ?_⟩
    cases n with
    | zero => omega
    | succ n =>
      rw [parseExpr_binary n op h1]
      simp [parseBinary, Fail.res]
  | @binaryLeft op ts f h1 h2 ih =>
    obtain ⟨t, tail, rfl, h3⟩ := ih
    refine ⟨op.token, _, rfl, fun n hn => ?_⟩
    cases n with
    | zero => omega
    | succ n =>
      simp only [List.length_cons] at hn
      rw [parseExpr_binary n op h1]
      simp [parseBinary, h3 n (by omega)]
  | @binaryMiddle op l an h1 h2 h3 h4 h5 =>
    subst h5
    refine ⟨op.token, _, rfl, fun n hn => ?_⟩
    obtain ⟨t, ts, h6, h7⟩ := parseExpr_complete' h2 h3 later
    simp only [h6, List.length_append, List.length_cons, List.length_nil] at hn
    cases n with
    | zero => omega
    | succ n =>
      rw [parseExpr_binary n op h1]
      have h9 := exec_nextIf_toList (f := Token.isKeyword .AN) (an := an) (fun t ht => isKeyword_true (h4 t ht))
        (cur := []) (later := later) (fun _ _ _ h => by cases h)
      rw [List.append_nil] at h9
      simp only [parseBinary, h6, List.cons_append, List.append_nil, exec_bind, exec_next_cons, Res.andThen_ok,
        h7 n (by omega), h9, exec_next_nil]
      rfl
  | @binaryRight op l an ts f h1 h2 h3 h4 h5 hf ih =>
    obtain ⟨u, us, rfl, ih⟩ := ih
    refine ⟨op.token, _, rfl, fun n hn => ?_⟩
    obtain ⟨t, ts, h6, h7⟩ := parseExpr_complete' h2 (h3.append (by simp) rest) later
    simp only [h6, List.length_append, List.length_cons] at hn
    cases n with
    | zero => omega
    | succ n =>
      rw [parseExpr_binary n op h1]
      have h9 := exec_nextIf_toList (f := Token.isKeyword .AN) (an := an) (fun t ht => isKeyword_true (h4 t ht))
        (cur := u :: (us ++ rest)) (later := later) (fun ha t r hr => by
          cases hr
          have := h5 ha u us rfl
          rw [← Token.isKeyword_iff] at this
          simpa using this)
      have h7 := h7 n (by simp only [List.length_append, List.length_cons]; omega)
      simp only [List.append_assoc, List.cons_append] at h7
      simp only [parseBinary, h6, List.cons_append, List.append_assoc, exec_bind, exec_next_cons, Res.andThen_ok,
        h7, h9, ih n (by omega), Fail.res_andThen]
  | @nary op es ts f h1 h2 h3 hf ih =>
    obtain ⟨u, us, rfl, ih⟩ := ih
    refine ⟨op.token, _, rfl, fun n hn => ?_⟩
    simp only [List.length_append, List.length_cons] at hn
    have hlen : es.length ≤ (toksOperands es).length := by
      clear hn h2
      induction es with
      | nil => simp
      | cons o es ih =>
        obtain ⟨e, an⟩ := o
        obtain ⟨t, ts, ht⟩ := e.toks_ne
        simp [toksOperands, ht]
        omega
    cases n with
    | zero => omega
    | succ n =>
      rw [parseExpr_nary n op h1]
      obtain ⟨m, rfl⟩ : ∃ m, n = m + 1 + es.length := ⟨n - es.length - 1, by omega⟩
      have h4 := parseOperands_prefix es (u :: (us ++ rest)) later (m + 1 + es.length) (m + 1) h2.head
        (by simp only [List.length_append, List.length_cons]; omega)
      have hu : u.tokenType ≠ .keyword .MKAY := h3 u us rfl
      have h5 : exec (parseOperands (parseExpr (m + 1 + es.length)) (m + 1)) ⟨u :: (us ++ rest), later⟩ =
          f.res ⟨rest, later⟩ := by
        simp only [parseOperands, exec_bind, exec_nextIfTokenTypeNe_cons, hu, if_false, Res.andThen_ok,
          ih (m + 1 + es.length) (by omega), Fail.res_andThen]
      simp only [parseNary, exec_bind, List.append_assoc, List.cons_append, h4, h5, Fail.res_andThen]

/-! ## Statements -/

theorem Visible.parseExpressions_prefix (es : List Expr) (cur : List Token) (later : List (List Token)) (n m : Nat)
    (h : FollowAll es cur) (hn : (es.flatMap Expr.toks).length + cur.length + 1 ≤ n) :
    exec (Visible.parseExpressions n (m + es.length)) ⟨es.flatMap Expr.toks ++ cur, later⟩ =
      (exec (Visible.parseExpressions n m) ⟨cur, later⟩).andThen fun more s => .ok (es ++ more) s := by
  induction es with
  | nil =>
    simp only [List.length_nil, Nat.add_zero, List.flatMap_nil, List.nil_append]
    cases exec (Visible.parseExpressions n m) ⟨cur, later⟩ <;> rfl
  | cons e es ih =>
    obtain ⟨h1, h2, h3⟩ := h
    obtain ⟨t, ts, h4, h5⟩ := parseExpr_complete' h1 h2 later
    have hne := (Expr.G_first ((Expr.G_iff e _).2 ⟨h1, h2⟩) h4).2.2.2
    simp only [List.flatMap_cons, h4, List.cons_append, List.length_cons, List.length_append] at hn
    have h6 := h5 n (by simp only [List.length_append]; omega)
    have ih := ih h3 (by omega)
    simp only [List.length_cons, ← Nat.add_assoc, Visible.parseExpressions, List.flatMap_cons, h4,
      List.cons_append, exec_bind, exec_nextIfTokenTypeNe_cons, hne, if_false, Res.andThen_ok, List.append_assoc,
      h6, ih]
    cases exec (Visible.parseExpressions n m) ⟨cur, later⟩ <;> rfl

theorem ArgsFail.complete {rest ts : List Token} {f : Fail} (h : ArgsFail rest ts f)
    (later : List (List Token)) (n m : Nat) (hn : ts.length + rest.length + 1 ≤ n) (hm : ts.length < m) :
    exec (IIz.parseArguments n m) ⟨ts ++ rest, later⟩ = f.res ⟨rest, later⟩ := by
  induction h generalizing m with
  | @yrEnd yr h1 h2 =>
    subst h2
    cases m with
    | zero => omega
    | succ m => simp [IIz.parseArguments, isKeyword_true h1, Fail.res]
  | @argument yr ts f h1 h2 =>
    obtain ⟨t, tail, rfl, h3⟩ := h2.complete later
    simp only [List.length_cons] at hn
    cases m with
    | zero => omega
    | succ m => simp [IIz.parseArguments, isKeyword_true h1, h3 n (by omega)]
  | @later yr an e ts f h1 h2 h3 h4 h5 ih =>
    cases m with
    | zero => omega
    | succ m =>
      obtain ⟨u, us, h6, h7⟩ := parseExpr_complete' h2 (rest := an :: (ts ++ rest))
        ⟨fun h => absurd h h3, fun _ => NoSlot.keyword h4⟩ later
      simp only [h6, List.cons_append, List.length_cons, List.length_append] at hn hm ⊢
      have h8 := h7 n (by simp only [List.length_cons, List.length_append]; omega)
      have ih := ih m (by omega) (by omega)
      simp only [IIz.parseArguments, exec_bind, exec_nextIf_cons, isKeyword_true h1, if_true,
        Res.andThen_ok, exec_next_cons, List.append_assoc, List.cons_append, h8, isKeyword_true h4, ih,
        Fail.res_andThen]

theorem NotFirst.nextIf {k : Keyword} {ts : List Token} (h : NotFirst k ts) (later : List (List Token)) :
    exec (nextIf (Token.isKeyword k)) ⟨ts, later⟩ = .ok none ⟨ts, later⟩ := by
  cases ts with
  | nil => simp
  | cons t r =>
    have := h t r rfl
    rw [← Token.isKeyword_iff] at this
    simp [this]

theorem ArgsEnd.complete {rest ts : List Token} (h : ArgsEnd rest ts)
    (later : List (List Token)) (n m : Nat) (hn : ts.length + rest.length + 1 ≤ n) (hm : ts.length < m) :
    ∃ es, exec (IIz.parseArguments n m) ⟨ts ++ rest, later⟩ = .ok es ⟨rest, later⟩ := by
  induction h generalizing m with
  | nil h =>
    cases m with
    | zero => omega
    | succ m => exact ⟨[], by simp [IIz.parseArguments, h.nextIf]⟩
  | @one yr e h1 h2 h3 h4 =>
    cases m with
    | zero => omega
    | succ m =>
      obtain ⟨t, ts, h5, h6⟩ := parseExpr_complete' h2 h3 later
      simp only [h5, List.length_cons] at hn ⊢
      refine ⟨[e], ?_⟩
      simp only [List.cons_append, IIz.parseArguments, exec_bind, exec_nextIf_cons, isKeyword_true h1, if_true,
        Res.andThen_ok, exec_next_cons, h6 n (by omega), h4.nextIf, exec_pure]
  | @cons yr an e ts h1 h2 h3 h4 h5 ih =>
    cases m with
    | zero => omega
    | succ m =>
      obtain ⟨u, us, h6, h7⟩ := parseExpr_complete' h2 (rest := an :: (ts ++ rest))
        ⟨fun h => absurd h h3, fun _ => NoSlot.keyword h4⟩ later
      simp only [h6, List.cons_append, List.length_cons, List.length_append] at hn hm ⊢
      have h8 := h7 n (by simp only [List.length_cons, List.length_append]; omega)
      obtain ⟨es, ih⟩ := ih m (by omega) (by omega)
      refine ⟨e :: es, ?_⟩
      simp only [IIz.parseArguments, exec_bind, exec_nextIf_cons, isKeyword_true h1, if_true,
        Res.andThen_ok, exec_next_cons, List.append_assoc, List.cons_append, h8, isKeyword_true h4, ih,
        exec_pure]

theorem ArgsFail.noSlot {rest ts : List Token} {f : Fail} (h : ArgsFail rest ts f) (r : List Token) :
    NoSlot (ts ++ r) := by
  cases h with
  | yrEnd h => exact NoSlot.keyword h
  | argument h => exact NoSlot.keyword h
  | later h => exact NoSlot.keyword h

theorem notValid {t : Token} {k : Keyword} (h : t.Is k) (hs : k ≠ .SRS) : VariableAccess.isValid t = false := by
  have h : t.tokenType = _ := h
  unfold VariableAccess.isValid
  rw [h]
  split <;> simp_all

theorem SimpleFail.complete {rest ts : List Token} {f : Fail} (h : SimpleFail rest ts f)
    (later : List (List Token)) : ∃ t tail, ts = t :: tail ∧ ∀ block n, tail.length + rest.length + 2 ≤ n →
      exec (parseStatement block n t) ⟨tail ++ rest, later⟩ = f.res ⟨rest, later⟩ := by
  cases h with
  | @declarationEnd t h1 h2 =>
    subst h2
    refine ⟨t, _, rfl, fun block n hn => ?_⟩
    simp only [parseStatement, notValid h1 (by decide), Bool.false_eq_true, if_false]
    rw [show t.tokenType = _ from h1]
    rfl
  | @declarationName t u h1 h2 h3 =>
    refine ⟨t, _, rfl, fun block n hn => ?_⟩
    have hv : VariableAccess.isValid u = false := by
      have : ¬ VariableAccess.isValid u = true := by rw [isValid_iff]; exact not_or.2 ⟨h2, h3⟩
      simpa using this
    simp only [parseStatement, notValid h1 (by decide), Bool.false_eq_true, if_false]
    rw [show t.tokenType = _ from h1]
    simp only [List.cons_append, List.nil_append, IHasA.parse, exec_bind, exec_next_cons, Res.andThen_ok, hv,
      Bool.false_eq_true, if_false]
    rfl
  | @declarationSrs t ts f h1 h2 h3 =>
    obtain ⟨u, us, rfl, h4⟩ := h3.complete later
    obtain ⟨u', us', h5, h6⟩ := h2
    cases h5
    refine ⟨t, _, rfl, fun block n hn => ?_⟩
    simp only [parseStatement, notValid h1 (by decide), Bool.false_eq_true, if_false]
    rw [show t.tokenType = _ from h1]
    simp only [List.cons_append, IHasA.parse, exec_bind, exec_next_cons, Res.andThen_ok, isValid_iff.2 h6,
      if_true, h4, Fail.res_andThen]
  | @declarationItz t i u h1 h2 h3 =>
    obtain ⟨w, ws, h4, -, h5, h6⟩ := Identifier.parse_complete i h2 (u :: rest) later
    refine ⟨t, _, rfl, fun block n hn => ?_⟩
    have hu : u.isKeyword .ITZ = false := by
      rw [← Token.isKeyword_iff] at h3; simpa using h3
    simp only [parseStatement, notValid h1 (by decide), Bool.false_eq_true, if_false]
    rw [show t.tokenType = _ from h1]
    simp only [h4, List.cons_append, List.append_assoc, List.nil_append, IHasA.parse, exec_bind, exec_next_cons,
      Res.andThen_ok, h5, if_true, h6, hu, Bool.false_eq_true, if_false]
    rfl
  | @declarationNoValue t i itz h1 h2 h3 h4 =>
    subst h4
    obtain ⟨w, ws, h4, -, h5, h6⟩ := Identifier.parse_complete i h2 [itz] later
    refine ⟨t, _, rfl, fun block n hn => ?_⟩
    simp only [parseStatement, notValid h1 (by decide), Bool.false_eq_true, if_false]
    rw [show t.tokenType = _ from h1]
    simp only [h4, List.cons_append, List.append_assoc, List.nil_append, IHasA.parse, exec_bind, exec_next_cons,
      Res.andThen_ok, h5, if_true, h6, isKeyword_true h3, exec_next_nil]
    rfl
  | @declarationValue t i itz ts f h1 h2 h3 h4 h5 =>
    obtain ⟨x, xs, rfl, h7⟩ := h5.complete later
    obtain ⟨w, ws, h8, -, h9, h10⟩ := Identifier.parse_complete i h2 (itz :: x :: (xs ++ rest)) later
    refine ⟨t, _, rfl, fun block n hn => ?_⟩
    simp only [h8, List.length_append, List.length_cons] at hn
    have hx : ASTType.tryFrom x = none := by
      have h4' : ∀ k ∈ typeKeywords, ¬ x.Is k := fun k hk => h4 k hk x xs rfl
      simp only [typeKeywords, List.mem_cons, List.not_mem_nil, or_false, forall_eq_or_imp, forall_eq,
        Token.Is] at h4'
      obtain ⟨n1, n2, n3, n4, n5, n6⟩ := h4'
      unfold ASTType.tryFrom
      split <;> first | contradiction | rfl
    simp only [parseStatement, notValid h1 (by decide), Bool.false_eq_true, if_false]
    rw [show t.tokenType = _ from h1]
    simp only [h8, List.cons_append, List.append_assoc, IHasA.parse, exec_bind, exec_next_cons,
      Res.andThen_ok, h9, if_true, h10, isKeyword_true h3, hx, h7 n (by omega), Fail.res_andThen]
  | @access ts f h1 h2 =>
    obtain ⟨u, us, rfl, h4⟩ := h2.complete later
    obtain ⟨u', us', h5, h6⟩ := h1
    cases h5
    refine ⟨u, us, rfl, fun block n hn => ?_⟩
    simp only [parseStatement, isValid_iff.2 h6, if_true, parseAccessStatement, exec_bind, h4 n (by omega),
      Fail.res_andThen]
  | @accessThen v t h1 h2 h3 h4 =>
    obtain ⟨u, us, h5, h6, h7⟩ := VariableAccess.parse_complete v h1 (t :: rest) (NoSlot.cons_iff.2 h4) later
    refine ⟨u, us ++ [t], by simp [h5], fun block n hn => ?_⟩
    simp only [List.length_append, List.length_cons] at hn
    simp only [parseStatement, h6, if_true, parseAccessStatement, exec_bind, List.append_assoc, List.cons_append,
      List.nil_append, h7 n (by omega), Res.andThen_ok, exec_peek_cons]
    split
    · rename_i h; exact absurd h h2
    · rename_i h; exact absurd h h3
    · rfl
  | @assignmentEnd v r h1 h2 h3 =>
    subst h3
    obtain ⟨u, us, h5, h6, h7⟩ := VariableAccess.parse_complete v h1 [r] (NoSlot.keyword h2) later
    refine ⟨u, us ++ [r], by simp [h5], fun block n hn => ?_⟩
    simp only [List.length_append, List.length_cons] at hn
    simp only [parseStatement, h6, if_true, parseAccessStatement, exec_bind, List.append_assoc, List.cons_append,
      List.nil_append, h7 n (by omega), Res.andThen_ok, exec_peek_cons]
    rw [show r.tokenType = _ from h2]
    simp only [VariableAssignment.parse, exec_bind, exec_next_cons, Res.andThen_ok, isKeyword_true h2, if_true,
      exec_next_nil]
    rfl
  | @assignmentValue v r ts f h1 h2 h3 =>
    obtain ⟨x, xs, rfl, h4⟩ := h3.complete later
    obtain ⟨u, us, h5, h6, h7⟩ := VariableAccess.parse_complete v h1 (r :: x :: (xs ++ rest)) (NoSlot.keyword h2) later
    refine ⟨u, us ++ r :: x :: xs, by simp [h5], fun block n hn => ?_⟩
    simp only [List.length_append, List.length_cons] at hn
    simp only [parseStatement, h6, if_true, parseAccessStatement, exec_bind, List.append_assoc, List.cons_append,
      h7 n (by omega), Res.andThen_ok, exec_peek_cons]
    rw [show r.tokenType = _ from h2]
    simp only [VariableAssignment.parse, exec_bind, exec_next_cons, Res.andThen_ok, isKeyword_true h2, if_true,
      h4 n (by omega), Fail.res_andThen]
  | @setSlotEnd v h h1 h2 h3 =>
    subst h3
    obtain ⟨u, us, h5, h6, h7⟩ := VariableAccess.parse_complete v h1 [h] (NoSlot.keyword h2) later
    refine ⟨u, us ++ [h], by simp [h5], fun block n hn => ?_⟩
    simp only [List.length_append, List.length_cons] at hn
    simp only [parseStatement, h6, if_true, parseAccessStatement, exec_bind, List.append_assoc, List.cons_append,
      List.nil_append, h7 n (by omega), Res.andThen_ok, exec_peek_cons]
    rw [show h.tokenType = _ from h2]
    simp only [BukkitSetSlot.parse, exec_bind, exec_next_cons, Res.andThen_ok, isKeyword_true h2, if_true,
      exec_next_nil]
    rfl
  | @setSlotName v h ts f h1 h2 h3 =>
    obtain ⟨x, xs, rfl, h4⟩ := h3.complete later
    obtain ⟨u, us, h5, h6, h7⟩ := VariableAccess.parse_complete v h1 (h :: x :: (xs ++ rest)) (NoSlot.keyword h2) later
    refine ⟨u, us ++ h :: x :: xs, by simp [h5], fun block n hn => ?_⟩
    simp only [List.length_append, List.length_cons] at hn
    simp only [parseStatement, h6, if_true, parseAccessStatement, exec_bind, List.append_assoc, List.cons_append,
      h7 n (by omega), Res.andThen_ok, exec_peek_cons]
    rw [show h.tokenType = _ from h2]
    simp only [BukkitSetSlot.parse, exec_bind, exec_next_cons, Res.andThen_ok, isKeyword_true h2, if_true,
      h4, Fail.res_andThen]
  | @setSlotNoItz v h i h1 h2 h3 h4 =>
    subst h4
    obtain ⟨w, ws, h8, -, h9, h10⟩ := Identifier.parse_complete i h3 [] later
    rw [List.append_nil] at h10
    obtain ⟨u, us, h5, h6, h7⟩ := VariableAccess.parse_complete v h1 (h :: w :: ws) (NoSlot.keyword h2) later
    refine ⟨u, us ++ h :: w :: ws, by simp [h5, h8], fun block n hn => ?_⟩
    simp only [List.length_append, List.length_cons] at hn
    simp only [parseStatement, h6, if_true, parseAccessStatement, exec_bind, List.append_nil,
      h7 n (by omega), Res.andThen_ok, exec_peek_cons]
    rw [show h.tokenType = _ from h2]
    simp only [BukkitSetSlot.parse, exec_bind, exec_next_cons, Res.andThen_ok, isKeyword_true h2, if_true,
      h10, exec_next_nil]
    rfl
  | @setSlotItz v h x i h1 h2 h3 h4 =>
    obtain ⟨w, ws, h8, -, h9, h10⟩ := Identifier.parse_complete i h3 (x :: rest) later
    obtain ⟨u, us, h5, h6, h7⟩ := VariableAccess.parse_complete v h1 (h :: w :: (ws ++ x :: rest))
      (NoSlot.keyword h2) later
    refine ⟨u, us ++ h :: w :: (ws ++ [x]), by simp [h5, h8], fun block n hn => ?_⟩
    simp only [List.length_append, List.length_cons] at hn
    have hx : x.isKeyword .ITZ = false := by
      rw [← Token.isKeyword_iff] at h4; simpa using h4
    simp only [parseStatement, h6, if_true, parseAccessStatement, exec_bind, List.append_assoc, List.cons_append,
      List.nil_append, h7 n (by omega), Res.andThen_ok, exec_peek_cons]
    rw [show h.tokenType = _ from h2]
    simp only [BukkitSetSlot.parse, exec_bind, exec_next_cons, Res.andThen_ok, isKeyword_true h2, if_true,
      h10, hx, Bool.false_eq_true, if_false]
    rfl
  | @setSlotNoValue v h x i h1 h2 h3 h4 h11 =>
    subst h11
    obtain ⟨w, ws, h8, -, h9, h10⟩ := Identifier.parse_complete i h3 [x] later
    obtain ⟨u, us, h5, h6, h7⟩ := VariableAccess.parse_complete v h1 (h :: w :: (ws ++ [x]))
      (NoSlot.keyword h2) later
    refine ⟨u, us ++ h :: w :: (ws ++ [x]), by simp [h5, h8], fun block n hn => ?_⟩
    simp only [List.length_append, List.length_cons] at hn
    simp only [parseStatement, h6, if_true, parseAccessStatement, exec_bind, List.append_assoc, List.cons_append,
      List.nil_append, h7 n (by omega), Res.andThen_ok, exec_peek_cons]
    rw [show h.tokenType = _ from h2]
    simp only [BukkitSetSlot.parse, exec_bind, exec_next_cons, Res.andThen_ok, isKeyword_true h2, if_true,
      h10, isKeyword_true h4, exec_next_nil]
    rfl
  | @setSlotValue v h x i ts f h1 h2 h3 h4 h11 =>
    obtain ⟨y, ys, rfl, h12⟩ := h11.complete later
    obtain ⟨w, ws, h8, -, h9, h10⟩ := Identifier.parse_complete i h3 (x :: y :: (ys ++ rest)) later
    obtain ⟨u, us, h5, h6, h7⟩ := VariableAccess.parse_complete v h1 (h :: w :: (ws ++ x :: y :: (ys ++ rest)))
      (NoSlot.keyword h2) later
    refine ⟨u, us ++ h :: w :: (ws ++ x :: y :: ys), by simp [h5, h8], fun block n hn => ?_⟩
    simp only [List.length_append, List.length_cons] at hn
    simp only [parseStatement, h6, if_true, parseAccessStatement, exec_bind, List.append_assoc, List.cons_append,
      h7 n (by omega), Res.andThen_ok, exec_peek_cons]
    rw [show h.tokenType = _ from h2]
    simp only [BukkitSetSlot.parse, exec_bind, exec_next_cons, Res.andThen_ok, isKeyword_true h2, if_true,
      h10, isKeyword_true h4, h12 n (by omega), Fail.res_andThen]
  | @visible t es ts f h1 h2 h3 h4 =>
    obtain ⟨x, xs, rfl, h5⟩ := h4.complete later
    refine ⟨t, _, rfl, fun block n hn => ?_⟩
    simp only [List.length_append, List.length_cons] at hn
    have hlen : es.length ≤ (es.flatMap Expr.toks).length := by
      clear hn h2
      induction es with
      | nil => simp
      | cons e es ih =>
        obtain ⟨t, ts, ht⟩ := e.toks_ne
        simp [ht] at ih ⊢
        omega
    obtain ⟨m, rfl⟩ : ∃ m, n = m + 1 + es.length := ⟨n - es.length - 1, by omega⟩
    have h6 := Visible.parseExpressions_prefix es (x :: (xs ++ rest)) later (m + 1 + es.length) (m + 1) h2.head
      (by simp only [List.length_append, List.length_cons]; omega)
    have hx := h3 x xs rfl
    have h7 : exec (Visible.parseExpressions (m + 1 + es.length) (m + 1)) ⟨x :: (xs ++ rest), later⟩ =
        f.res ⟨rest, later⟩ := by
      simp only [Visible.parseExpressions, exec_bind, exec_nextIfTokenTypeNe_cons, hx, if_false, Res.andThen_ok,
        h5 (m + 1 + es.length) (by omega), Fail.res_andThen]
    simp only [parseStatement, notValid h1 (by decide), Bool.false_eq_true, if_false]
    rw [show t.tokenType = _ from h1]
    simp only [Visible.parse, exec_bind, List.append_assoc, List.cons_append, h6, h7, Fail.res_andThen]
  | @gimmehEnd t h1 h2 =>
    subst h2
    refine ⟨t, _, rfl, fun block n hn => ?_⟩
    simp only [parseStatement, notValid h1 (by decide), Bool.false_eq_true, if_false]
    rw [show t.tokenType = _ from h1]
    rfl
  | @gimmeh t ts f h1 h2 =>
    obtain ⟨x, xs, rfl, h5⟩ := h2.complete later
    refine ⟨t, _, rfl, fun block n hn => ?_⟩
    simp only [List.length_cons] at hn
    simp only [parseStatement, notValid h1 (by decide), Bool.false_eq_true, if_false]
    rw [show t.tokenType = _ from h1]
    simp only [Gimmeh.parse, exec_bind, List.cons_append, exec_next_cons, Res.andThen_ok, h5 n (by omega),
      Fail.res_andThen]
  | @foundYrEnd t h1 h2 =>
    subst h2
    refine ⟨t, _, rfl, fun block n hn => ?_⟩
    simp only [parseStatement, notValid h1 (by decide), Bool.false_eq_true, if_false]
    rw [show t.tokenType = _ from h1]
    rfl
  | @foundYr t ts f h1 h2 =>
    obtain ⟨x, xs, rfl, h5⟩ := h2.complete later
    refine ⟨t, _, rfl, fun block n hn => ?_⟩
    simp only [List.length_cons] at hn
    simp only [parseStatement, notValid h1 (by decide), Bool.false_eq_true, if_false]
    rw [show t.tokenType = _ from h1]
    simp only [FoundYr.parse, exec_bind, List.cons_append, exec_next_cons, Res.andThen_ok, h5 n (by omega),
      Fail.res_andThen]
  | @callEnd t h1 h2 =>
    subst h2
    refine ⟨t, _, rfl, fun block n hn => ?_⟩
    simp only [parseStatement, notValid h1 (by decide), Bool.false_eq_true, if_false]
    rw [show t.tokenType = _ from h1]
    rfl
  | @callName t ts f h1 h2 =>
    obtain ⟨x, xs, rfl, h5⟩ := h2.complete later
    refine ⟨t, _, rfl, fun block n hn => ?_⟩
    simp only [List.length_cons] at hn
    simp only [parseStatement, notValid h1 (by decide), Bool.false_eq_true, if_false]
    rw [show t.tokenType = _ from h1]
    simp only [IIz.parse, exec_bind, List.cons_append, exec_next_cons, Res.andThen_ok, h5 n (by omega),
      Fail.res_andThen]
  | @callArguments t v ts f h1 h2 h3 =>
    obtain ⟨u, us, h5, h6, h7⟩ := VariableAccess.parse_complete v h2 (ts ++ rest) (h3.noSlot rest) later
    refine ⟨t, _, rfl, fun block n hn => ?_⟩
    simp only [h5, List.length_append, List.length_cons] at hn
    have h8 := h3.complete later n n (by omega) (by omega)
    simp only [parseStatement, notValid h1 (by decide), Bool.false_eq_true, if_false]
    rw [show t.tokenType = _ from h1]
    simp only [IIz.parse, exec_bind, h5, List.cons_append, List.append_assoc, exec_next_cons, Res.andThen_ok,
      h7 n (by omega), h8, Fail.res_andThen]
  | @callNoMkay t v ts h1 h2 h3 h4 =>
    subst h4
    have hns : NoSlot ts := by
      cases h3 with
      | nil => exact NoSlot.nil
      | one h => exact NoSlot.keyword h
      | cons h => exact NoSlot.keyword h
    obtain ⟨u, us, h5, h6, h7⟩ := VariableAccess.parse_complete v h2 ts hns later
    refine ⟨t, _, rfl, fun block n hn => ?_⟩
    simp only [h5, List.length_append, List.length_cons, List.length_nil] at hn
    obtain ⟨es, h8⟩ := h3.complete later n n (by simp; omega) (by omega)
    rw [List.append_nil] at h8
    simp only [parseStatement, notValid h1 (by decide), Bool.false_eq_true, if_false]
    rw [show t.tokenType = _ from h1]
    simp only [IIz.parse, exec_bind, h5, List.cons_append, List.append_nil, exec_next_cons, Res.andThen_ok,
      h7 n (by omega), h8, exec_next_nil]
    rfl
  | @callMkay t v ts x h1 h2 h3 h4 h9 =>
    have hns : NoSlot (ts ++ x :: rest) := by
      cases ts with
      | nil => exact NoSlot.cons_iff.2 (NoSlot.cons_iff.1 h4)
      | cons a b => exact NoSlot.cons_iff.2 (NoSlot.cons_iff.1 h4)
    obtain ⟨u, us, h5, h6, h7⟩ := VariableAccess.parse_complete v h2 (ts ++ x :: rest) hns later
    refine ⟨t, _, rfl, fun block n hn => ?_⟩
    simp only [h5, List.length_append, List.length_cons, List.length_nil] at hn
    obtain ⟨es, h8⟩ := h3.complete later n n (by simp; omega) (by omega)
    have hx : x.isKeyword .MKAY = false := by
      rw [← Token.isKeyword_iff] at h9; simpa using h9
    simp only [parseStatement, notValid h1 (by decide), Bool.false_eq_true, if_false]
    rw [show t.tokenType = _ from h1]
    simp only [IIz.parse, exec_bind, h5, List.cons_append, List.append_assoc, List.nil_append, exec_next_cons,
      Res.andThen_ok, h7 n (by omega), h8, hx, Bool.false_eq_true, if_false]
    rfl
  | @expression t ts f h1 h2 h3 h4 =>
    obtain ⟨x, xs, h5, h6⟩ := h4.complete later
    cases h5
    refine ⟨t, ts, rfl, fun block n hn => ?_⟩
    have hv : VariableAccess.isValid t = false := by
      have : ¬ VariableAccess.isValid t = true := by rw [isValid_iff]; exact not_or.2 ⟨h2, h3⟩
      simpa using this
    simp only [statementKeywords, List.mem_cons, List.not_mem_nil, or_false, forall_eq_or_imp, forall_eq,
      Token.Is] at h1
    obtain ⟨n1, n2, n3, n4, n5, n6, n7, n8, n9, n10, n11, n12⟩ := h1
    simp only [parseStatement, hv, Bool.false_eq_true, if_false]
    simp only [exec_bind, h6 n (by omega), Fail.res_andThen]

end Lol
