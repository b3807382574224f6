import Verif.Parser.ReadSound

/-! # Reading a program, errors included: completeness -/

namespace Lol

/-- The outcome of the model. -/
def Read.res {α : Type} : Read α → Res Stmts α
  | .ok a s => .ok a s
  | .error e s => .err e s
  | .panic p => .panic p

theorem Fail.read_res {α : Type} (f : Fail) (s : Stmts) : (f.read s : Read α).res = f.res s := by
  cases f <;> rfl

theorem Fail.andThen {α β : Type} (f : Fail) (s : Stmts) (g : α → Stmts → Res Stmts β) :
    (f.res s).andThen g = f.res s := by
  cases f <;> rfl

theorem Read.res_map {α β : Type} (r : Read α) (g : α → β) :
    (r.map g).res = r.res.andThen fun a s => .ok (g a) s := by
  cases r <;> rfl

/-! ## Headers -/

theorem NotFirst.nextIf_or {k1 k2 : Keyword} {ts : List Token} (h1 : NotFirst k1 ts) (h2 : NotFirst k2 ts)
    (later : List (List Token)) :
    exec (Lol.nextIf (fun t => t.isKeyword k1 || t.isKeyword k2)) ⟨ts, later⟩ = .ok none ⟨ts, later⟩ := by
  cases ts with
  | nil => simp
  | cons t r =>
    have h1 := h1 t r rfl
    have h2 := h2 t r rfl
    rw [← Token.isKeyword_iff] at h1 h2
    simp [h1, h2]

theorem IterR.complete {rest ts : List Token} {op : Option LoopIterationOperation} (h : IterR rest ts op)
    (later : List (List Token)) (n : Nat) (hn : ts.length + 1 ≤ n) :
    exec (parseIterationOperation n) ⟨ts ++ rest, later⟩ = .ok op ⟨rest, later⟩ := by
  cases h with
  | none h1 h2 =>
    unfold parseIterationOperation
    rw [exec_bind, List.nil_append, h1.nextIf_or h2]
    rfl
  | @some op yr v h1 h2 h3 h4 =>
    obtain ⟨u, us, h11, h12, h13⟩ := VariableAccess.parse_complete v h3 rest h4 later
    rw [h11] at hn ⊢
    simp only [List.length_cons] at hn
    have h13 := h13 n (by omega)
    cases op with
    | uppin t =>
      have h1 : t.Is .UPPIN := h1
      simp only [LoopOperation.token, parseIterationOperation, List.cons_append, exec_bind, exec_nextIf_cons,
        isKeyword_true h1, Bool.true_or, if_true, Res.andThen_ok, exec_next_cons, isKeyword_true h2, h13, exec_pure]
    | nerfin t =>
      have h1 : t.Is .NERFIN := h1
      simp only [LoopOperation.token, parseIterationOperation, List.cons_append, exec_bind, exec_nextIf_cons,
        isKeyword_true h1, Bool.or_true, if_true, Res.andThen_ok, exec_next_cons, isKeyword_true h2, h13,
        isKeyword_false h1 (by decide : Keyword.NERFIN ≠ .UPPIN), exec_pure]
      rfl

/-- What `parse_iteration_operation` does after `UPPIN` or `NERFIN`. -/
theorem iteration_first {op : LoopOperation} (h : op.token.Is op.keyword) :
    (op.token.isKeyword .UPPIN || op.token.isKeyword .NERFIN) = true ∧
      (if op.token.isKeyword .UPPIN then LoopOperation.uppin op.token else .nerfin op.token) = op := by
  cases op with
  | uppin t =>
    have h : t.Is .UPPIN := h
    simp [LoopOperation.token, isKeyword_true h]
  | nerfin t =>
    have h : t.Is .NERFIN := h
    simp [LoopOperation.token, isKeyword_true h, isKeyword_false h (by decide : Keyword.NERFIN ≠ .UPPIN)]

theorem IterFail.complete {rest ts : List Token} {f : Fail} (h : IterFail rest ts f)
    (later : List (List Token)) (n : Nat) (hn : ts.length + 1 ≤ n) :
    exec (parseIterationOperation n) ⟨ts ++ rest, later⟩ = f.res ⟨rest, later⟩ := by
  unfold parseIterationOperation
  cases h with
  | yrEnd h1 h2 =>
    subst h2
    obtain ⟨h1, h1'⟩ := iteration_first h1
    simp [h1, h1', Fail.res]
  | yr h1 h2 =>
    obtain ⟨h1, h1'⟩ := iteration_first h1
    rw [← Token.isKeyword_iff] at h2
    simp [h1, h2, Fail.res]
  | nameEnd h1 h2 h3 =>
    subst h3
    obtain ⟨h1, h1'⟩ := iteration_first h1
    simp [h1, h1', isKeyword_true h2, Fail.res]
  | name h1 h2 h3 =>
    obtain ⟨h1, h1'⟩ := iteration_first h1
    obtain ⟨t, tail, rfl, h4⟩ := h3.complete later
    simp only [List.length_cons] at hn
    have h4 := h4 n (by omega)
    simp [h1, isKeyword_true h2, h4]

theorem CondR.complete {rest ts : List Token} {c : Option LoopCondition} (h : CondR rest ts c)
    (later : List (List Token)) (n : Nat) (hn : ts.length + rest.length + 1 ≤ n) :
    exec (parseConditional n) ⟨ts ++ rest, later⟩ = .ok c ⟨rest, later⟩ := by
  unfold parseConditional
  cases h with
  | none h1 h2 =>
    rw [exec_bind, List.nil_append, h1.nextIf_or h2]
    rfl
  | til h1 h2 h3 =>
    obtain ⟨u, us, h5, h6⟩ := parseExpr_complete' h2 h3 later
    rw [h5] at hn ⊢
    simp only [List.length_cons] at hn
    have h6 := h6 n (by first | omega | (simp; omega))
    simp [isKeyword_true h1, h6]
  | wile h1 h2 h3 =>
    obtain ⟨u, us, h5, h6⟩ := parseExpr_complete' h2 h3 later
    rw [h5] at hn ⊢
    simp only [List.length_cons] at hn
    have h6 := h6 n (by first | omega | (simp; omega))
    simp [isKeyword_true h1, isKeyword_false h1 (by decide : Keyword.WILE ≠ .TIL), h6]

theorem CondFail.complete {rest ts : List Token} {f : Fail} (h : CondFail rest ts f)
    (later : List (List Token)) (n : Nat) (hn : ts.length + rest.length + 1 ≤ n) :
    exec (parseConditional n) ⟨ts ++ rest, later⟩ = f.res ⟨rest, later⟩ := by
  unfold parseConditional
  have hk : ∀ t : Token, t.Is .TIL ∨ t.Is .WILE → (t.isKeyword .TIL || t.isKeyword .WILE) = true := by
    rintro t (h | h) <;> simp [isKeyword_true h]
  cases h with
  | exprEnd h1 h2 =>
    subst h2
    simp [hk _ h1, Fail.res]
  | expr h1 h2 =>
    obtain ⟨t, tail, rfl, h4⟩ := h2.complete later
    simp only [List.length_cons] at hn
    have h4 := h4 n (by omega)
    simp [hk _ h1, h4]

theorem CondFail.first {rest ts : List Token} {f : Fail} (h : CondFail rest ts f) : ts ≠ [] := by
  cases h <;> simp

theorem ParamsR.complete {rest ts : List Token} {is : List Identifier} (h : ParamsR rest ts is)
    (later : List (List Token)) (m : Nat) (hm : ts.length < m) :
    exec (parseParameters m) ⟨ts ++ rest, later⟩ = .ok is ⟨rest, later⟩ := by
  induction h generalizing m with
  | nil h1 =>
    obtain ⟨m, rfl⟩ : ∃ k, m = k + 1 := ⟨m - 1, by omega⟩
    unfold parseParameters
    rw [exec_bind, List.nil_append, h1.nextIf]
    rfl
  | @one yr i h1 h2 h3 =>
    obtain ⟨m, rfl⟩ : ∃ k, m = k + 1 := ⟨m - 1, by omega⟩
    obtain ⟨u, us, h4, -, h5, h6⟩ := Identifier.parse_complete i h2 rest later
    rw [h4]
    unfold parseParameters
    cases rest with
    | nil =>
      rw [List.append_nil] at h6
      simp [isKeyword_true h1, h6]
    | cons t r =>
      have h3 := h3 t r rfl
      rw [← Token.isKeyword_iff] at h3
      simp [isKeyword_true h1, h6, h3]
  | @cons yr i an ts is h1 h2 h3 h4 ih =>
    obtain ⟨m, rfl⟩ : ∃ k, m = k + 1 := ⟨m - 1, by omega⟩
    obtain ⟨u, us, h5, -, h6, h7⟩ := Identifier.parse_complete i h2 (an :: (ts ++ rest)) later
    rw [h5] at hm ⊢
    simp only [List.length_cons, List.length_append] at hm
    have ih := ih m (by omega)
    unfold parseParameters
    simp [isKeyword_true h1, h7, isKeyword_true h3, ih]

theorem ParamsFail.complete {rest ts : List Token} {f : Fail} (h : ParamsFail rest ts f)
    (later : List (List Token)) (m : Nat) (hm : ts.length < m) :
    exec (parseParameters m) ⟨ts ++ rest, later⟩ = f.res ⟨rest, later⟩ := by
  induction h generalizing m with
  | nameEnd h1 h2 =>
    subst h2
    obtain ⟨m, rfl⟩ : ∃ k, m = k + 1 := ⟨m - 1, by omega⟩
    unfold parseParameters
    simp [isKeyword_true h1, Fail.res]
  | name h1 h2 =>
    obtain ⟨m, rfl⟩ : ∃ k, m = k + 1 := ⟨m - 1, by omega⟩
    obtain ⟨t, tail, rfl, h4⟩ := h2.complete later
    unfold parseParameters
    simp [isKeyword_true h1, h4]
  | @later yr an i ts f h1 h2 h3 h4 ih =>
    obtain ⟨m, rfl⟩ : ∃ k, m = k + 1 := ⟨m - 1, by omega⟩
    obtain ⟨u, us, h5, -, h6, h7⟩ := Identifier.parse_complete i h2 (an :: (ts ++ rest)) later
    rw [h5] at hm ⊢
    simp only [List.length_cons, List.length_append] at hm
    have ih := ih m (by omega)
    unfold parseParameters
    simp [isKeyword_true h1, h7, isKeyword_true h3, ih]

/-- What follows the first statement of a block construct. -/
def Heading.tail (block : (Token → Bool) → Prog Block) (n : Nat) : Heading → Prog Node
  | .loop first label onIteration condition => do
    let codeBlock ← block stopLoop
    match ← next with
    | none => fail (.imInYr (.missingImOuttaYr first))
    | some imOuttaYr =>
      match ← next with
      | none => fail (.imInYr (.missingEndLabel imOuttaYr))
      | some endLabel =>
        if endLabel.isIdentifier then
          pure (.imInYr first label onIteration condition codeBlock endLabel)
        else fail (.imInYr (.invalidEndLabel endLabel))
  | .function first name arguments => do
    let body ← block stopFunction
    match ← next with
    | none => fail (.missingBlockClosingToken first)
    | some token =>
      if token.isKeyword .IF_U_SAY_SO then
        nextStatementShouldBeEmpty
        pure (.howIzI first name arguments body)
      else fail (.unexpectedToken token)
  | .switch first => do
    let omg ← parseOmgs block n n
    let omgWtf ← parseOmgWtf block
    match ← next with
    | none => fail (.missingBlockClosingToken first)
    | some token =>
      if token.isKeyword .OIC then
        nextStatementShouldBeEmpty
        pure (.wtf first omg omgWtf)
      else fail (.unexpectedToken token)
  | .conditional first => do
    let ifTrue ← parseYaRly block
    let mebbes ← parseMebbes block n n
    let ifFalse ← parseNoWai block
    match ← next with
    | none => fail (.missingBlockClosingToken first)
    | some token =>
      if token.isKeyword .OIC then pure (.oRly first ifTrue ifFalse mebbes)
      else fail (.unexpectedToken token)

theorem statement_loop {t : Token} (h : t.Is .IM_IN_YR) (block : (Token → Bool) → Prog Block) (n : Nat) :
    parseStatement block n t = parseImInYr block n t := by
  have hv := notValid h (by decide)
  have h : t.tokenType = _ := h
  simp [parseStatement, hv, h]

theorem statement_function {t : Token} (h : t.Is .HOW_IZ_I) (block : (Token → Bool) → Prog Block) (n : Nat) :
    parseStatement block n t = parseHowIzI block n t := by
  have hv := notValid h (by decide)
  have h : t.tokenType = _ := h
  simp [parseStatement, hv, h]

theorem statement_switch {t : Token} (h : t.Is .WTF) (block : (Token → Bool) → Prog Block) (n : Nat) :
    parseStatement block n t = parseWtf block n t := by
  have hv := notValid h (by decide)
  have h : t.tokenType = _ := h
  simp [parseStatement, hv, h]

theorem statement_conditional {t : Token} (h : t.Is .O_RLY) (block : (Token → Bool) → Prog Block) (n : Nat) :
    parseStatement block n t = parseORly block n t := by
  have hv := notValid h (by decide)
  have h : t.tokenType = _ := h
  simp [parseStatement, hv, h]

theorem HeadR.complete {rest ts : List Token} {h : Heading} (hh : HeadR rest ts h) (later : List (List Token)) :
    ∃ t tail, ts = t :: tail ∧ ∀ block n, ts.length + rest.length + 2 ≤ n →
      exec (parseStatement block n t) ⟨tail ++ rest, later⟩ =
        exec (do nextStatementShouldBeEmpty; h.tail block n) ⟨rest, later⟩ := by
  cases hh with
  | loop h1 h2 h3 h4 =>
    refine ⟨_, _, rfl, fun block n hn => ?_⟩
    simp only [List.length_cons, List.length_append] at hn
    have h5 := h3.complete later n (by omega)
    have h6 := h4.complete later n (by omega)
    rw [← Token.isIdentifier_iff] at h2
    rw [statement_loop h1]
    unfold parseImInYr
    rw [← List.append_assoc] at h5
    simp only [List.cons_append, exec_bind, exec_next_cons, Res.andThen_ok, h2, if_true, h5, h6, Heading.tail]
    rfl
  | @function t i ps params h1 h2 h3 =>
    refine ⟨_, _, rfl, fun block n hn => ?_⟩
    simp only [List.length_cons, List.length_append] at hn
    obtain ⟨u, us, h5, -, -, h6⟩ := Identifier.parse_complete i h2 (ps ++ rest) later
    have h7 := h3.complete later n (by omega)
    rw [statement_function h1, h5]
    unfold parseHowIzI
    simp only [List.cons_append, List.append_assoc, exec_bind, exec_next_cons, Res.andThen_ok, h6, h7, Heading.tail]
    rfl
  | switch h1 h2 =>
    refine ⟨_, _, rfl, fun block n hn => ?_⟩
    rw [← Token.isQuestion_iff] at h2
    rw [statement_switch h1]
    unfold parseWtf
    simp only [List.cons_append, List.nil_append, exec_bind, exec_next_cons, Res.andThen_ok, h2, if_true,
      Heading.tail]
    rfl
  | conditional h1 h2 =>
    refine ⟨_, _, rfl, fun block n hn => ?_⟩
    rw [← Token.isQuestion_iff] at h2
    rw [statement_conditional h1]
    unfold parseORly
    simp only [List.cons_append, List.nil_append, exec_bind, exec_next_cons, Res.andThen_ok, h2, if_true,
      Heading.tail]
    rfl

theorem HeadFail.complete {rest ts : List Token} {f : Fail} (h : HeadFail rest ts f) (later : List (List Token)) :
    ∃ t tail, ts = t :: tail ∧ ∀ block n, ts.length + rest.length + 2 ≤ n →
      exec (parseStatement block n t) ⟨tail ++ rest, later⟩ = f.res ⟨rest, later⟩ := by
  cases h with
  | labelEnd h1 h2 =>
    subst h2
    refine ⟨_, _, rfl, fun block n hn => ?_⟩
    rw [statement_loop h1]
    simp [parseImInYr, Fail.res]
  | label h1 h2 =>
    refine ⟨_, _, rfl, fun block n hn => ?_⟩
    rw [← Token.isIdentifier_iff] at h2
    rw [statement_loop h1]
    simp [parseImInYr, Fail.res, h2]
  | iteration h1 h2 h3 =>
    refine ⟨_, _, rfl, fun block n hn => ?_⟩
    rw [← Token.isIdentifier_iff] at h2
    simp only [List.length_cons] at hn
    have h4 := h3.complete later n (by omega)
    rw [statement_loop h1]
    simp [parseImInYr, h2, h4]
  | condition h1 h2 h3 h4 =>
    refine ⟨_, _, rfl, fun block n hn => ?_⟩
    rw [← Token.isIdentifier_iff] at h2
    simp only [List.length_cons, List.length_append] at hn
    have h5 := h3.complete later n (by omega)
    have h6 := h4.complete later n (by omega)
    rw [statement_loop h1]
    simp [parseImInYr, h2, h5, h6]
  | nameEnd h1 h2 =>
    subst h2
    refine ⟨_, _, rfl, fun block n hn => ?_⟩
    rw [statement_function h1]
    simp [parseHowIzI, Fail.res]
  | name h1 h2 =>
    obtain ⟨t, tail, rfl, h4⟩ := h2.complete later
    refine ⟨_, _, rfl, fun block n hn => ?_⟩
    rw [statement_function h1]
    simp [parseHowIzI, h4]
  | @params t i ts f h1 h2 h3 =>
    refine ⟨_, _, rfl, fun block n hn => ?_⟩
    simp only [List.length_cons, List.length_append] at hn
    obtain ⟨u, us, h5, -, -, h6⟩ := Identifier.parse_complete i h2 (ts ++ rest) later
    have h7 := h3.complete later n (by omega)
    rw [statement_function h1, h5]
    simp [parseHowIzI, h6, h7]
  | questionEnd h1 h2 =>
    subst h2
    refine ⟨_, _, rfl, fun block n hn => ?_⟩
    rcases h1 with h1 | h1
    · rw [statement_switch h1]
      simp [parseWtf, Fail.res]
    · rw [statement_conditional h1]
      simp [parseORly, Fail.res]
  | question h1 h2 =>
    refine ⟨_, _, rfl, fun block n hn => ?_⟩
    rw [← Token.isQuestion_iff] at h2
    rcases h1 with h1 | h1
    · rw [statement_switch h1]
      simp [parseWtf, Fail.res, h2]
    · rw [statement_conditional h1]
      simp [parseORly, Fail.res, h2]

/-! ## Statements and blocks -/

/-- `parse_statement` gives `r` on `s`. -/
def NodeRC (s : Stmts) (r : Read Node) : Prop :=
  ∃ t cur later, s = ⟨t :: cur, later⟩ ∧ ∃ n0, ∀ n, n0 ≤ n →
    exec (parseStatement (parseBlock n) n t) ⟨cur, later⟩ = r.res

/-- A parser gives `r` on `s`. -/
def ProgC {α : Type} (p : Nat → Prog α) (s : Stmts) (r : Read α) : Prop :=
  ∃ n0, ∀ n, n0 ≤ n → exec (p n) s = r.res

/-- `parse_block` gives `r` on `s`. -/
def BlockRC (close : List Keyword) (s : Stmts) (r : Read Block) : Prop :=
  ∀ stop, Recognises stop close → ProgC (parseBlock · stop) s r

/-- A round of `parse_block` gives `r` on `s`. -/
def StepRC (s : Stmts) : Read Block → Prop
  | .ok nodes s' => ∃ pre c l, nodes = pre ++ leftoverNodes c ∧ s' = .of l ∧ ∃ n0, ∀ n, n0 ≤ n → ∀ stop,
      exec (parseBlock (n + 1) stop) s = exec (blockTail n stop pre) ⟨c, l⟩
  | .error _ _ => False
  | .panic p => ∃ n0, ∀ n, n0 ≤ n → ∀ stop, exec (parseBlock n stop) s = .panic p

theorem ProgC.bind {α β : Type} {p : Nat → Prog α} {f : Nat → α → Prog β} {s s' : Stmts} {a : α} {r : Read β}
    (h1 : ProgC p s (.ok a s')) (h2 : ProgC (f · a) s' r) : ProgC (fun n => p n >>= f n) s r := by
  obtain ⟨n1, h1⟩ := h1
  obtain ⟨n2, h2⟩ := h2
  refine ⟨max n1 n2, fun n hn => ?_⟩
  rw [exec_bind, h1 n (by omega)]
  exact h2 n (by omega)

theorem ProgC.bindFail {α β : Type} {p : Nat → Prog α} {g : Nat → α → Prog β} {s s' : Stmts} {f : Fail}
    (h : ProgC p s (f.read s')) : ProgC (fun n => p n >>= g n) s (f.read s') := by
  obtain ⟨n1, h1⟩ := h
  refine ⟨n1, fun n hn => ?_⟩
  rw [exec_bind, h1 n (by omega), Fail.read_res, Fail.read_res, Fail.andThen]

theorem ProgC.map {α β : Type} {p : Nat → Prog α} {g : α → β} {s : Stmts} {r : Read α}
    (h : ProgC p s r) : ProgC (fun n => p n >>= fun a => pure (g a)) s (r.map g) := by
  obtain ⟨n1, h1⟩ := h
  refine ⟨n1, fun n hn => ?_⟩
  rw [exec_bind, h1 n (by omega), Read.res_map]
  rfl

theorem ProgC.of {α : Type} {p : Nat → Prog α} {s : Stmts} {r : Read α} (h : ∀ n, exec (p n) s = r.res) :
    ProgC p s r := ⟨0, fun n _ => h n⟩

/-- What follows a header, once it is known. -/
theorem nodeRC_head {ts : List Token} {h : Heading} {later : List (List Token)} {r : Read Node}
    (hh : HeadR [] ts h) (hr : ProgC (fun n => h.tail (parseBlock n) n) (.of later) r) :
    NodeRC ⟨ts, later⟩ r := by
  obtain ⟨t, tail, rfl, h1⟩ := hh.complete later
  obtain ⟨n0, h2⟩ := hr
  refine ⟨t, tail, later, rfl, n0 + (t :: tail).length + 2, fun n hn => ?_⟩
  have h1 := h1 (parseBlock n) n (by simp at hn ⊢; omega)
  rw [List.append_nil] at h1
  rw [h1, exec_bind, exec_nextStatementShouldBeEmpty]
  simp only [if_true, Res.andThen_ok, Stmts.advance_of]
  exact h2 n (by omega)

theorem nodeRC_simple {ts rest : List Token} {node : Node} {later : List (List Token)} (h : SimpleG rest ts node) :
    NodeRC ⟨ts ++ rest, later⟩ (.ok node ⟨rest, later⟩) := by
  obtain ⟨t, tail, rfl, h1⟩ := h.complete later
  exact ⟨t, tail ++ rest, later, rfl, tail.length + rest.length + 2, fun n hn => h1 _ n hn⟩

theorem nodeRC_simpleFail {ts rest : List Token} {f : Fail} {later : List (List Token)}
    (h : SimpleFail rest ts f) : NodeRC ⟨ts ++ rest, later⟩ (f.read ⟨rest, later⟩) := by
  obtain ⟨t, tail, rfl, h1⟩ := h.complete later
  refine ⟨t, tail ++ rest, later, rfl, tail.length + rest.length + 2, fun n hn => ?_⟩
  rw [h1 _ n hn, Fail.read_res]

theorem nodeRC_hai {t : Token} {version : List Token} {later : List (List Token)} (h : t.Is .HAI) :
    NodeRC ⟨t :: version, later⟩ (.ok (.hai ⟨t, version⟩) (.of later)) := by
  refine ⟨t, version, later, rfl, 0, fun n _ => ?_⟩
  have hv := notValid h (by decide)
  have h : t.tokenType = _ := h
  simp [parseStatement, hv, h, Hai.parse, Stmts.advance_of, Read.res]

theorem nodeRC_headFail {ts rest : List Token} {f : Fail} {later : List (List Token)}
    (h : HeadFail rest ts f) : NodeRC ⟨ts ++ rest, later⟩ (f.read ⟨rest, later⟩) := by
  obtain ⟨t, tail, rfl, h1⟩ := h.complete later
  refine ⟨t, tail ++ rest, later, rfl, (t :: tail).length + rest.length + 2, fun n hn => ?_⟩
  rw [h1 _ n hn, Fail.read_res]

theorem nodeRC_headLeft {ts rest : List Token} {h : Heading} {later : List (List Token)}
    (hh : HeadR rest ts h) (hne : rest ≠ []) :
    NodeRC ⟨ts ++ rest, later⟩ (.error (.tooManyTokens rest) (.of later)) := by
  obtain ⟨t, tail, rfl, h1⟩ := hh.complete later
  refine ⟨t, tail ++ rest, later, rfl, (t :: tail).length + rest.length + 2, fun n hn => ?_⟩
  rw [h1 _ n hn, exec_bind, exec_nextStatementShouldBeEmpty]
  simp [hne, Stmts.advance_of, Read.res]

section
variable {ts : List Token} {t label : Token} {op : Option LoopIterationOperation} {cond : Option LoopCondition}
  {i : Identifier} {params : List Identifier} {later l : List (List Token)} {body : Block}

theorem nodeRC_loop {c endLabel : Token} {rest : List Token} (hh : HeadR [] ts (.loop t label op cond))
    (hb : BlockRC closeLoop (.of later) (.ok body ⟨c :: endLabel :: rest, l⟩)) (he : endLabel.IsIdent) :
    NodeRC ⟨ts, later⟩ (.ok (.imInYr t label op cond body endLabel) ⟨rest, l⟩) := by
  refine nodeRC_head hh (.bind (hb _ recognises_loop) (.of fun n => ?_))
  simp [Token.isIdentifier_iff.2 he, Read.res]

theorem nodeRC_loopPanic {p : PanicSite} (hh : HeadR [] ts (.loop t label op cond))
    (hb : BlockRC closeLoop (.of later) (.panic p)) : NodeRC ⟨ts, later⟩ (.panic p) :=
  nodeRC_head hh (.bindFail (f := .panic p) (s' := ⟨[], []⟩) (hb _ recognises_loop))

theorem nodeRC_loopEnd (hh : HeadR [] ts (.loop t label op cond))
    (hb : BlockRC closeLoop (.of later) (.ok body ⟨[], l⟩)) :
    NodeRC ⟨ts, later⟩ (.error (.imInYr (.missingImOuttaYr t)) ⟨[], l⟩) := by
  refine nodeRC_head hh (.bind (hb _ recognises_loop) (.of fun n => ?_))
  simp [Read.res]

theorem nodeRC_loopLabelEnd {c : Token} (hh : HeadR [] ts (.loop t label op cond))
    (hb : BlockRC closeLoop (.of later) (.ok body ⟨[c], l⟩)) :
    NodeRC ⟨ts, later⟩ (.error (.imInYr (.missingEndLabel c)) ⟨[], l⟩) := by
  refine nodeRC_head hh (.bind (hb _ recognises_loop) (.of fun n => ?_))
  simp [Read.res]

theorem nodeRC_loopLabel {c u : Token} {rest : List Token} (hh : HeadR [] ts (.loop t label op cond))
    (hb : BlockRC closeLoop (.of later) (.ok body ⟨c :: u :: rest, l⟩)) (hu : ¬ u.IsIdent) :
    NodeRC ⟨ts, later⟩ (.error (.imInYr (.invalidEndLabel u)) ⟨rest, l⟩) := by
  refine nodeRC_head hh (.bind (hb _ recognises_loop) (.of fun n => ?_))
  rw [← Token.isIdentifier_iff] at hu
  simp [hu, Read.res]

theorem nodeRC_function {c : Token} (hh : HeadR [] ts (.function t i params)) (hc : c.Is .IF_U_SAY_SO)
    (hb : BlockRC closeFunction (.of later) (.ok body ⟨[c], l⟩)) :
    NodeRC ⟨ts, later⟩ (.ok (.howIzI t i params body) (.of l)) := by
  refine nodeRC_head hh (.bind (hb _ recognises_function) (.of fun n => ?_))
  simp [isKeyword_true hc, Stmts.advance_of, Read.res]

theorem nodeRC_functionPanic {p : PanicSite} (hh : HeadR [] ts (.function t i params))
    (hb : BlockRC closeFunction (.of later) (.panic p)) : NodeRC ⟨ts, later⟩ (.panic p) :=
  nodeRC_head hh (.bindFail (f := .panic p) (s' := ⟨[], []⟩) (hb _ recognises_function))

theorem nodeRC_functionEnd (hh : HeadR [] ts (.function t i params))
    (hb : BlockRC closeFunction (.of later) (.ok body ⟨[], l⟩)) :
    NodeRC ⟨ts, later⟩ (.error (.missingBlockClosingToken t) ⟨[], l⟩) := by
  refine nodeRC_head hh (.bind (hb _ recognises_function) (.of fun n => ?_))
  simp [Read.res]

theorem nodeRC_functionLeft {c : Token} {rest : List Token} (hh : HeadR [] ts (.function t i params))
    (hc : c.Is .IF_U_SAY_SO)
    (hb : BlockRC closeFunction (.of later) (.ok body ⟨c :: rest, l⟩)) (hne : rest ≠ []) :
    NodeRC ⟨ts, later⟩ (.error (.tooManyTokens rest) (.of l)) := by
  refine nodeRC_head hh (.bind (hb _ recognises_function) (.of fun n => ?_))
  simp [isKeyword_true hc, hne, Stmts.advance_of, Read.res]

end

/-- The loop of cases gives `r` on `s`. -/
def OmgsRC (s : Stmts) (r : Read (List WtfOmg)) : Prop :=
  ∃ n0, ∀ n m, n0 ≤ n → n0 ≤ m → exec (parseOmgs (parseBlock n) n m) s = r.res

/-- The loop of `MEBBE` parts gives `r` on `s`. -/
def MebbesRC (s : Stmts) (r : Read (List Mebbe)) : Prop :=
  ∃ n0, ∀ n m, n0 ≤ n → n0 ≤ m → exec (parseMebbes (parseBlock n) n m) s = r.res

theorem OmgsRC.prog {s : Stmts} {r : Read (List WtfOmg)} (h : OmgsRC s r) :
    ProgC (fun n => parseOmgs (parseBlock n) n n) s r := by
  obtain ⟨n0, h⟩ := h
  exact ⟨n0, fun n hn => h n n hn hn⟩

theorem MebbesRC.prog {s : Stmts} {r : Read (List Mebbe)} (h : MebbesRC s r) :
    ProgC (fun n => parseMebbes (parseBlock n) n n) s r := by
  obtain ⟨n0, h⟩ := h
  exact ⟨n0, fun n hn => h n n hn hn⟩

/-- The default case gives `r` on `s`. -/
abbrev OmgWtfRC (s : Stmts) (r : Read (Option WtfOmgWtf)) : Prop := ProgC (fun n => parseOmgWtf (parseBlock n)) s r
/-- The `YA RLY` part gives `r` on `s`. -/
abbrev YaRlyRC (s : Stmts) (r : Read (Option YaRly)) : Prop := ProgC (fun n => parseYaRly (parseBlock n)) s r
/-- The `NO WAI` part gives `r` on `s`. -/
abbrev NoWaiRC (s : Stmts) (r : Read (Option NoWai)) : Prop := ProgC (fun n => parseNoWai (parseBlock n)) s r

section
variable {ts : List Token} {t : Token} {later l : List (List Token)} {omgs : List WtfOmg}
  {dflt : Option WtfOmgWtf} {s s1 s2 : Stmts} {c : Token} {rest : List Token} {f : Fail}
  {yaRly : Option YaRly} {mebbes : List Mebbe} {noWai : Option NoWai}

theorem nodeRC_switch (hh : HeadR [] ts (.switch t)) (h1 : OmgsRC (.of later) (.ok omgs s1))
    (h2 : OmgWtfRC s1 (.ok dflt ⟨[c], l⟩)) (hc : c.Is .OIC) :
    NodeRC ⟨ts, later⟩ (.ok (.wtf t omgs dflt) (.of l)) := by
  refine nodeRC_head hh (.bind h1.prog (.bind h2 (.of fun n => ?_)))
  simp [isKeyword_true hc, Stmts.advance_of, Read.res]

theorem nodeRC_switchCases (hh : HeadR [] ts (.switch t)) (h1 : OmgsRC (.of later) (f.read s)) :
    NodeRC ⟨ts, later⟩ (f.read s) := nodeRC_head hh (.bindFail h1.prog)

theorem nodeRC_switchDefault (hh : HeadR [] ts (.switch t)) (h1 : OmgsRC (.of later) (.ok omgs s1))
    (h2 : OmgWtfRC s1 (f.read s)) :
    NodeRC ⟨ts, later⟩ (f.read s) := nodeRC_head hh (.bind h1.prog (.bindFail h2))

theorem nodeRC_switchEnd (hh : HeadR [] ts (.switch t)) (h1 : OmgsRC (.of later) (.ok omgs s1))
    (h2 : OmgWtfRC s1 (.ok dflt ⟨[], l⟩)) :
    NodeRC ⟨ts, later⟩ (.error (.missingBlockClosingToken t) ⟨[], l⟩) := by
  refine nodeRC_head hh (.bind h1.prog (.bind h2 (.of fun n => ?_)))
  simp [Read.res]

theorem nodeRC_switchOther (hh : HeadR [] ts (.switch t)) (h1 : OmgsRC (.of later) (.ok omgs s1))
    (h2 : OmgWtfRC s1 (.ok dflt ⟨c :: rest, l⟩)) (hc : ¬ c.Is .OIC) :
    NodeRC ⟨ts, later⟩ (.error (.unexpectedToken c) ⟨rest, l⟩) := by
  refine nodeRC_head hh (.bind h1.prog (.bind h2 (.of fun n => ?_)))
  rw [← Token.isKeyword_iff] at hc
  simp [hc, Read.res]

theorem nodeRC_switchLeft (hh : HeadR [] ts (.switch t)) (h1 : OmgsRC (.of later) (.ok omgs s1))
    (h2 : OmgWtfRC s1 (.ok dflt ⟨c :: rest, l⟩)) (hc : c.Is .OIC) (hne : rest ≠ []) :
    NodeRC ⟨ts, later⟩ (.error (.tooManyTokens rest) (.of l)) := by
  refine nodeRC_head hh (.bind h1.prog (.bind h2 (.of fun n => ?_)))
  simp [isKeyword_true hc, hne, Stmts.advance_of, Read.res]

theorem nodeRC_conditional (hh : HeadR [] ts (.conditional t)) (h1 : YaRlyRC (.of later) (.ok yaRly s1))
    (h2 : MebbesRC s1 (.ok mebbes s2)) (h3 : NoWaiRC s2 (.ok noWai ⟨c :: rest, l⟩)) (hc : c.Is .OIC) :
    NodeRC ⟨ts, later⟩ (.ok (.oRly t yaRly noWai mebbes) ⟨rest, l⟩) := by
  refine nodeRC_head hh (.bind h1 (.bind h2.prog (.bind h3 (.of fun n => ?_))))
  simp [isKeyword_true hc, Read.res]

theorem nodeRC_conditionalYes (hh : HeadR [] ts (.conditional t)) (h1 : YaRlyRC (.of later) (f.read s)) :
    NodeRC ⟨ts, later⟩ (f.read s) := nodeRC_head hh (.bindFail h1)

theorem nodeRC_conditionalMaybe (hh : HeadR [] ts (.conditional t)) (h1 : YaRlyRC (.of later) (.ok yaRly s1))
    (h2 : MebbesRC s1 (f.read s)) :
    NodeRC ⟨ts, later⟩ (f.read s) := nodeRC_head hh (.bind h1 (.bindFail h2.prog))

theorem nodeRC_conditionalNo (hh : HeadR [] ts (.conditional t)) (h1 : YaRlyRC (.of later) (.ok yaRly s1))
    (h2 : MebbesRC s1 (.ok mebbes s2)) (h3 : NoWaiRC s2 (f.read s)) :
    NodeRC ⟨ts, later⟩ (f.read s) := nodeRC_head hh (.bind h1 (.bind h2.prog (.bindFail h3)))

theorem nodeRC_conditionalEnd (hh : HeadR [] ts (.conditional t)) (h1 : YaRlyRC (.of later) (.ok yaRly s1))
    (h2 : MebbesRC s1 (.ok mebbes s2)) (h3 : NoWaiRC s2 (.ok noWai ⟨[], l⟩)) :
    NodeRC ⟨ts, later⟩ (.error (.missingBlockClosingToken t) ⟨[], l⟩) := by
  refine nodeRC_head hh (.bind h1 (.bind h2.prog (.bind h3 (.of fun n => ?_))))
  simp [Read.res]

theorem nodeRC_conditionalOther (hh : HeadR [] ts (.conditional t)) (h1 : YaRlyRC (.of later) (.ok yaRly s1))
    (h2 : MebbesRC s1 (.ok mebbes s2)) (h3 : NoWaiRC s2 (.ok noWai ⟨c :: rest, l⟩)) (hc : ¬ c.Is .OIC) :
    NodeRC ⟨ts, later⟩ (.error (.unexpectedToken c) ⟨rest, l⟩) := by
  refine nodeRC_head hh (.bind h1 (.bind h2.prog (.bind h3 (.of fun n => ?_))))
  rw [← Token.isKeyword_iff] at hc
  simp [hc, Read.res]

end

/-! ## Parts -/

theorem omgsRC_nil {s : Stmts} (h : NotFirst .OMG s.cur) : OmgsRC s (.ok [] s) := by
  refine ⟨1, fun n m _ hm => ?_⟩
  obtain ⟨m, rfl⟩ : ∃ k, m = k + 1 := ⟨m - 1, by omega⟩
  unfold parseOmgs
  rw [exec_bind, h.nextIf]
  rfl

theorem omgsRC_valueEnd {t : Token} {l : List (List Token)} (h : t.Is .OMG) :
    OmgsRC ⟨[t], l⟩ (.error (.missingToken t) ⟨[], l⟩) := by
  refine ⟨1, fun n m _ hm => ?_⟩
  obtain ⟨m, rfl⟩ : ∃ k, m = k + 1 := ⟨m - 1, by omega⟩
  simp [parseOmgs, isKeyword_true h, Read.res]

theorem omgsRC_value {t : Token} {ts rest : List Token} {f : Fail} {l : List (List Token)} (h : t.Is .OMG)
    (h2 : ExprFail rest ts f) : OmgsRC ⟨t :: (ts ++ rest), l⟩ (f.read ⟨rest, l⟩) := by
  obtain ⟨u, tail, rfl, h4⟩ := h2.complete l
  refine ⟨tail.length + rest.length + 2, fun n m hn hm => ?_⟩
  obtain ⟨m, rfl⟩ : ∃ k, m = k + 1 := ⟨m - 1, by omega⟩
  simp [parseOmgs, isKeyword_true h, h4 n hn, Fail.read_res]

theorem omgsRC_left {t : Token} {e : Expr} {rest : List Token} {l : List (List Token)} (h : t.Is .OMG)
    (h1 : e.WF) (h2 : e.Follow rest) (hne : rest ≠ []) :
    OmgsRC ⟨t :: (Expr.toks e ++ rest), l⟩ (.error (.tooManyTokens rest) (.of l)) := by
  obtain ⟨u, us, h5, h6⟩ := parseExpr_complete' h1 h2 l
  refine ⟨us.length + rest.length + 2, fun n m hn hm => ?_⟩
  obtain ⟨m, rfl⟩ : ∃ k, m = k + 1 := ⟨m - 1, by omega⟩
  have h6 := h6 n (by first | omega | (simp; omega))
  simp [parseOmgs, isKeyword_true h, h5, h6, hne, Stmts.advance_of, Read.res]

theorem omgsRC_body {t : Token} {e : Expr} {l : List (List Token)} {p : PanicSite} (h : t.Is .OMG)
    (h1 : e.WF) (h2 : BlockRC closeSwitch (.of l) (.panic p)) : OmgsRC ⟨t :: Expr.toks e, l⟩ (.panic p) := by
  obtain ⟨u, us, h5, h6⟩ := parseExpr_complete' h1 (rest := []) ⟨fun _ => rfl, fun _ => NoSlot.nil⟩ l
  obtain ⟨n0, h2⟩ := h2 _ recognises_switch
  refine ⟨us.length + n0 + 2, fun n m hn hm => ?_⟩
  obtain ⟨m, rfl⟩ : ∃ k, m = k + 1 := ⟨m - 1, by omega⟩
  have h6 := h6 n (by first | omega | (simp; omega))
  rw [List.append_nil] at h6
  have h2 := h2 n (by omega)
  simp [parseOmgs, isKeyword_true h, h5, h6, Stmts.advance_of, h2, Read.res]

theorem omgsRC_cons {t : Token} {e : Expr} {l : List (List Token)} {nodes : Block} {s : Stmts}
    {r : Read (List WtfOmg)} (h : t.Is .OMG)
    (h1 : e.WF) (h2 : BlockRC closeSwitch (.of l) (.ok nodes s)) (h3 : OmgsRC s r) :
    OmgsRC ⟨t :: Expr.toks e, l⟩ (r.map (.mk t e nodes :: ·)) := by
  obtain ⟨u, us, h5, h6⟩ := parseExpr_complete' h1 (rest := []) ⟨fun _ => rfl, fun _ => NoSlot.nil⟩ l
  obtain ⟨n0, h2⟩ := h2 _ recognises_switch
  obtain ⟨n1, h3⟩ := h3
  refine ⟨us.length + n0 + n1 + 2, fun n m hn hm => ?_⟩
  obtain ⟨m, rfl⟩ : ∃ k, m = k + 1 := ⟨m - 1, by omega⟩
  have h6 := h6 n (by first | omega | (simp; omega))
  rw [List.append_nil] at h6
  have h2 := h2 n (by omega)
  have h3 := h3 n m (by omega) (by omega)
  simp only [Read.res] at h2
  simp [parseOmgs, isKeyword_true h, h5, h6, Stmts.advance_of, h2, h3, Read.res_map]

theorem NotFirst.nextIfEq {k : Keyword} {ts : List Token} (h : NotFirst k ts) (later : List (List Token)) :
    exec (nextIfTokenTypeEq (.keyword k)) ⟨ts, later⟩ = .ok none ⟨ts, later⟩ := by
  cases ts with
  | nil => simp
  | cons t r =>
    have := h t r rfl
    have : ¬ t.tokenType = .keyword k := this
    simp [this]

theorem mebbesRC_nil {s : Stmts} (h : NotFirst .MEBBE s.cur) : MebbesRC s (.ok [] s) := by
  refine ⟨1, fun n m _ hm => ?_⟩
  obtain ⟨m, rfl⟩ : ∃ k, m = k + 1 := ⟨m - 1, by omega⟩
  unfold parseMebbes
  rw [exec_bind, h.nextIfEq]
  rfl

theorem mebbesRC_valueEnd {t : Token} {l : List (List Token)} (h : t.Is .MEBBE) :
    MebbesRC ⟨[t], l⟩ (.error (.oRly (.missingMebbeExpression t)) ⟨[], l⟩) := by
  refine ⟨1, fun n m _ hm => ?_⟩
  obtain ⟨m, rfl⟩ : ∃ k, m = k + 1 := ⟨m - 1, by omega⟩
  have h : t.tokenType = _ := h
  simp [parseMebbes, h, Read.res]

theorem mebbesRC_value {t : Token} {ts rest : List Token} {f : Fail} {l : List (List Token)} (h : t.Is .MEBBE)
    (h2 : ExprFail rest ts f) : MebbesRC ⟨t :: (ts ++ rest), l⟩ (f.read ⟨rest, l⟩) := by
  obtain ⟨u, tail, rfl, h4⟩ := h2.complete l
  refine ⟨tail.length + rest.length + 2, fun n m hn hm => ?_⟩
  obtain ⟨m, rfl⟩ : ∃ k, m = k + 1 := ⟨m - 1, by omega⟩
  have h : t.tokenType = _ := h
  simp [parseMebbes, h, h4 n hn, Fail.read_res]

theorem mebbesRC_left {t : Token} {e : Expr} {rest : List Token} {l : List (List Token)} (h : t.Is .MEBBE)
    (h1 : e.WF) (h2 : e.Follow rest) (hne : rest ≠ []) :
    MebbesRC ⟨t :: (Expr.toks e ++ rest), l⟩ (.error (.tooManyTokens rest) (.of l)) := by
  obtain ⟨u, us, h5, h6⟩ := parseExpr_complete' h1 h2 l
  refine ⟨us.length + rest.length + 2, fun n m hn hm => ?_⟩
  obtain ⟨m, rfl⟩ : ∃ k, m = k + 1 := ⟨m - 1, by omega⟩
  have h6 := h6 n (by first | omega | (simp; omega))
  have h : t.tokenType = _ := h
  simp [parseMebbes, h, h5, h6, hne, Stmts.advance_of, Read.res]

theorem mebbesRC_body {t : Token} {e : Expr} {l : List (List Token)} {p : PanicSite} (h : t.Is .MEBBE)
    (h1 : e.WF) (h2 : BlockRC closeIf (.of l) (.panic p)) : MebbesRC ⟨t :: Expr.toks e, l⟩ (.panic p) := by
  obtain ⟨u, us, h5, h6⟩ := parseExpr_complete' h1 (rest := []) ⟨fun _ => rfl, fun _ => NoSlot.nil⟩ l
  obtain ⟨n0, h2⟩ := h2 _ recognises_if
  refine ⟨us.length + n0 + 2, fun n m hn hm => ?_⟩
  obtain ⟨m, rfl⟩ : ∃ k, m = k + 1 := ⟨m - 1, by omega⟩
  have h6 := h6 n (by first | omega | (simp; omega))
  rw [List.append_nil] at h6
  have h2 := h2 n (by omega)
  have h : t.tokenType = _ := h
  simp [parseMebbes, h, h5, h6, Stmts.advance_of, h2, Read.res]

theorem mebbesRC_cons {t : Token} {e : Expr} {l : List (List Token)} {nodes : Block} {s : Stmts}
    {r : Read (List Mebbe)} (h : t.Is .MEBBE)
    (h1 : e.WF) (h2 : BlockRC closeIf (.of l) (.ok nodes s)) (h3 : MebbesRC s r) :
    MebbesRC ⟨t :: Expr.toks e, l⟩ (r.map (.mk t e nodes :: ·)) := by
  obtain ⟨u, us, h5, h6⟩ := parseExpr_complete' h1 (rest := []) ⟨fun _ => rfl, fun _ => NoSlot.nil⟩ l
  obtain ⟨n0, h2⟩ := h2 _ recognises_if
  obtain ⟨n1, h3⟩ := h3
  refine ⟨us.length + n0 + n1 + 2, fun n m hn hm => ?_⟩
  obtain ⟨m, rfl⟩ : ∃ k, m = k + 1 := ⟨m - 1, by omega⟩
  have h6 := h6 n (by first | omega | (simp; omega))
  rw [List.append_nil] at h6
  have h2 := h2 n (by omega)
  have h3 := h3 n m (by omega) (by omega)
  have h : t.tokenType = _ := h
  simp only [Read.res] at h2
  simp [parseMebbes, h, h5, h6, Stmts.advance_of, h2, h3, Read.res_map]

theorem omgWtfRC_none {s : Stmts} (h : NotFirst .OMGWTF s.cur) : OmgWtfRC s (.ok none s) := by
  refine .of fun n => ?_
  unfold parseOmgWtf
  rw [exec_bind, h.nextIf]
  rfl

theorem omgWtfRC_left {t : Token} {rest : List Token} {l : List (List Token)} (h : t.Is .OMGWTF)
    (hne : rest ≠ []) : OmgWtfRC ⟨t :: rest, l⟩ (.error (.tooManyTokens rest) (.of l)) := by
  refine .of fun n => ?_
  simp [parseOmgWtf, isKeyword_true h, hne, Stmts.advance_of, Read.res]

theorem omgWtfRC_some {t : Token} {l : List (List Token)} {r : Read Block} (h : t.Is .OMGWTF)
    (hb : BlockRC closeSwitch (.of l) r) : OmgWtfRC ⟨[t], l⟩ (r.map (some <| .mk t ·)) := by
  obtain ⟨n0, hb⟩ := hb _ recognises_switch
  refine ⟨n0, fun n hn => ?_⟩
  simp [parseOmgWtf, isKeyword_true h, Stmts.advance_of, hb n hn, Read.res_map]

theorem yaRlyRC_none {s : Stmts} (h : NotFirst .YA_RLY s.cur) : YaRlyRC s (.ok none s) := by
  refine .of fun n => ?_
  unfold parseYaRly
  rw [exec_bind, h.nextIf]
  rfl

theorem yaRlyRC_left {t : Token} {rest : List Token} {l : List (List Token)} (h : t.Is .YA_RLY)
    (hne : rest ≠ []) : YaRlyRC ⟨t :: rest, l⟩ (.error (.tooManyTokens rest) (.of l)) := by
  refine .of fun n => ?_
  simp [parseYaRly, isKeyword_true h, hne, Stmts.advance_of, Read.res]

theorem yaRlyRC_some {t : Token} {l : List (List Token)} {r : Read Block} (h : t.Is .YA_RLY)
    (hb : BlockRC closeIf (.of l) r) : YaRlyRC ⟨[t], l⟩ (r.map (some <| .mk t ·)) := by
  obtain ⟨n0, hb⟩ := hb _ recognises_if
  refine ⟨n0, fun n hn => ?_⟩
  simp [parseYaRly, isKeyword_true h, Stmts.advance_of, hb n hn, Read.res_map]

theorem noWaiRC_none {s : Stmts} (h : NotFirst .NO_WAI s.cur) : NoWaiRC s (.ok none s) := by
  refine .of fun n => ?_
  unfold parseNoWai
  rw [exec_bind, h.nextIf]
  rfl

theorem noWaiRC_left {t : Token} {rest : List Token} {l : List (List Token)} (h : t.Is .NO_WAI)
    (hne : rest ≠ []) : NoWaiRC ⟨t :: rest, l⟩ (.error (.tooManyTokens rest) (.of l)) := by
  refine .of fun n => ?_
  simp [parseNoWai, isKeyword_true h, hne, Stmts.advance_of, Read.res]

theorem noWaiRC_some {t : Token} {l : List (List Token)} {r : Read Block} (h : t.Is .NO_WAI)
    (hb : BlockRC closeIf (.of l) r) : NoWaiRC ⟨[t], l⟩ (r.map (some <| .mk t ·)) := by
  obtain ⟨n0, hb⟩ := hb _ recognises_if
  refine ⟨n0, fun n hn => ?_⟩
  simp [parseNoWai, isKeyword_true h, Stmts.advance_of, hb n hn, Read.res_map]

/-! ## Rounds and blocks -/

theorem stepRC_empty {l : List (List Token)} : StepRC ⟨[], l⟩ (.ok [] (.of l)) :=
  ⟨[], [], l, rfl, rfl, 0, fun n _ stop => parseBlock_nil n stop l⟩

theorem stepRC_ok {s : Stmts} {node : Node} {rest : List Token} {l : List (List Token)}
    (h : NodeRC s (.ok node ⟨rest, l⟩)) : StepRC s (.ok (node :: leftoverNodes rest) (.of l)) := by
  obtain ⟨t, cur, later, rfl, n0, h⟩ := h
  refine ⟨[node], rest, l, rfl, rfl, n0, fun n hn stop => ?_⟩
  rw [parseBlock_cons', exec_toResult, h n hn]
  rfl

theorem stepRC_error {s : Stmts} {e : ASTError} {rest : List Token} {l : List (List Token)}
    (h : NodeRC s (.error e ⟨rest, l⟩)) : StepRC s (.ok (.astError e :: leftoverNodes rest) (.of l)) := by
  obtain ⟨t, cur, later, rfl, n0, h⟩ := h
  refine ⟨[.astError e], rest, l, rfl, rfl, n0, fun n hn stop => ?_⟩
  rw [parseBlock_cons', exec_toResult, h n hn]
  rfl

theorem stepRC_panic {s : Stmts} {p : PanicSite} (h : NodeRC s (.panic p)) : StepRC s (.panic p) := by
  obtain ⟨t, cur, later, rfl, n0, h⟩ := h
  refine ⟨n0 + 1, fun n hn stop => ?_⟩
  obtain ⟨n, rfl⟩ : ∃ k, n = k + 1 := ⟨n - 1, by omega⟩
  rw [parseBlock_cons', exec_toResult, h n (by omega)]
  rfl

theorem blockRC_last {close : List Keyword} {s s' : Stmts} {nodes : Block} (h : StepRC s (.ok nodes s'))
    (hs : Stop close s') : BlockRC close s (.ok nodes s') := by
  obtain ⟨pre, c, l, rfl, rfl, n0, h⟩ := h
  refine fun stop hstop => ⟨n0 + 1, fun n hn => ?_⟩
  obtain ⟨n, rfl⟩ : ∃ k, n = k + 1 := ⟨n - 1, by omega⟩
  dsimp only
  rw [h n (by omega), exec_blockTail]
  rcases hs with hs | ⟨t, r, hs, hk⟩
  · rw [hs]
    rfl
  · rw [hs]
    simp [(hstop t).2 hk, Read.res]

theorem blockRC_more {close : List Keyword} {s s' : Stmts} {nodes : Block} {r : Read Block}
    (h : StepRC s (.ok nodes s')) (hs : ¬ Stop close s') (hr : BlockRC close s' r) :
    BlockRC close s (r.map (nodes ++ ·)) := by
  obtain ⟨pre, c, l, rfl, rfl, n0, h⟩ := h
  refine fun stop hstop => ?_
  obtain ⟨n1, hr⟩ := hr stop hstop
  refine ⟨n0 + n1 + 1, fun n hn => ?_⟩
  obtain ⟨n, rfl⟩ : ∃ k, n = k + 1 := ⟨n - 1, by omega⟩
  dsimp only at hr ⊢
  rw [h n (by omega), exec_blockTail]
  cases hc : (Stmts.of l).cur with
  | nil => exact absurd (.inl hc) hs
  | cons t r' =>
    have ht : stop t = false := by
      cases ht : stop t with
      | false => rfl
      | true => exact absurd (.inr ⟨t, r', hc, (hstop t).1 ht⟩) hs
    simp only [ht, Bool.false_eq_true, if_false, hr n (by omega), Read.res_map]

theorem blockRC_panic {close : List Keyword} {s : Stmts} {p : PanicSite} (h : StepRC s (.panic p)) :
    BlockRC close s (.panic p) := by
  obtain ⟨n0, h⟩ := h
  exact fun stop _ => ⟨n0, fun n hn => h n hn stop⟩

/-- The token that ends the body of a function. -/
theorem BlockR.functionEnd {s : Stmts} {body : Block} {c : Token} {rest : List Token} {l : List (List Token)}
    (h : BlockR closeFunction s (.ok body ⟨c :: rest, l⟩)) : c.Is .IF_U_SAY_SO := by
  rcases h.stop _ _ rfl with h | ⟨t, r, h, k, hk, ht⟩
  · cases h
  · cases h
    simp only [closeFunction, List.mem_singleton] at hk
    subst hk
    exact ht

mutual

theorem NodeR.complete {s : Stmts} {r : Read Node} : NodeR s r → NodeRC s r
  | .simple h => nodeRC_simple h
  | .simpleFail h => nodeRC_simpleFail h
  | .hai h => nodeRC_hai h
  | .headFail h => nodeRC_headFail h
  | .headLeft h1 h2 => nodeRC_headLeft h1 h2
  | .loop h1 h2 h3 => nodeRC_loop h1 h2.complete h3
  | .loopPanic h1 h2 => nodeRC_loopPanic h1 h2.complete
  | .loopEnd h1 h2 => nodeRC_loopEnd h1 h2.complete
  | .loopLabelEnd h1 h2 => nodeRC_loopLabelEnd h1 h2.complete
  | .loopLabel h1 h2 h3 => nodeRC_loopLabel h1 h2.complete h3
  | .function h1 h2 => nodeRC_function h1 h2.functionEnd h2.complete
  | .functionPanic h1 h2 => nodeRC_functionPanic h1 h2.complete
  | .functionEnd h1 h2 => nodeRC_functionEnd h1 h2.complete
  | .functionLeft h1 h2 h3 => nodeRC_functionLeft h1 h2.functionEnd h2.complete h3
  | .switch h1 h2 h3 h4 => nodeRC_switch h1 h2.complete h3.complete h4
  | .switchCases h1 h2 => nodeRC_switchCases h1 h2.complete
  | .switchDefault h1 h2 h3 => nodeRC_switchDefault h1 h2.complete h3.complete
  | .switchEnd h1 h2 h3 => nodeRC_switchEnd h1 h2.complete h3.complete
  | .switchOther h1 h2 h3 h4 => nodeRC_switchOther h1 h2.complete h3.complete h4
  | .switchLeft h1 h2 h3 h4 h5 => nodeRC_switchLeft h1 h2.complete h3.complete h4 h5
  | .conditional h1 h2 h3 h4 h5 => nodeRC_conditional h1 h2.complete h3.complete h4.complete h5
  | .conditionalYes h1 h2 => nodeRC_conditionalYes h1 h2.complete
  | .conditionalMaybe h1 h2 h3 => nodeRC_conditionalMaybe h1 h2.complete h3.complete
  | .conditionalNo h1 h2 h3 h4 => nodeRC_conditionalNo h1 h2.complete h3.complete h4.complete
  | .conditionalEnd h1 h2 h3 h4 => nodeRC_conditionalEnd h1 h2.complete h3.complete h4.complete
  | .conditionalOther h1 h2 h3 h4 h5 => nodeRC_conditionalOther h1 h2.complete h3.complete h4.complete h5

theorem OmgsR.complete {s : Stmts} {r : Read (List WtfOmg)} : OmgsR s r → OmgsRC s r
  | .nil h => omgsRC_nil h
  | .valueEnd h => omgsRC_valueEnd h
  | .value h1 h2 => omgsRC_value h1 h2
  | .left h1 h2 h3 h4 => omgsRC_left h1 h2 h3 h4
  | .body h1 h2 h3 => omgsRC_body h1 h2 h3.complete
  | .cons h1 h2 h3 h4 => omgsRC_cons h1 h2 h3.complete h4.complete

theorem OmgWtfR.complete {s : Stmts} {r : Read (Option WtfOmgWtf)} : OmgWtfR s r → OmgWtfRC s r
  | .none h => omgWtfRC_none h
  | .left h1 h2 => omgWtfRC_left h1 h2
  | .some h1 h2 => omgWtfRC_some h1 h2.complete

theorem YaRlyR.complete {s : Stmts} {r : Read (Option YaRly)} : YaRlyR s r → YaRlyRC s r
  | .none h => yaRlyRC_none h
  | .left h1 h2 => yaRlyRC_left h1 h2
  | .some h1 h2 => yaRlyRC_some h1 h2.complete

theorem MebbesR.complete {s : Stmts} {r : Read (List Mebbe)} : MebbesR s r → MebbesRC s r
  | .nil h => mebbesRC_nil h
  | .valueEnd h => mebbesRC_valueEnd h
  | .value h1 h2 => mebbesRC_value h1 h2
  | .left h1 h2 h3 h4 => mebbesRC_left h1 h2 h3 h4
  | .body h1 h2 h3 => mebbesRC_body h1 h2 h3.complete
  | .cons h1 h2 h3 h4 => mebbesRC_cons h1 h2 h3.complete h4.complete

theorem NoWaiR.complete {s : Stmts} {r : Read (Option NoWai)} : NoWaiR s r → NoWaiRC s r
  | .none h => noWaiRC_none h
  | .left h1 h2 => noWaiRC_left h1 h2
  | .some h1 h2 => noWaiRC_some h1 h2.complete

theorem StepR.complete {s : Stmts} {r : Read Block} : StepR s r → StepRC s r
  | .empty => stepRC_empty
  | .ok h => stepRC_ok h.complete
  | .error h => stepRC_error h.complete
  | .panic h => stepRC_panic h.complete

theorem BlockR.complete {close : List Keyword} {s : Stmts} {r : Read Block} : BlockR close s r → BlockRC close s r
  | .last h1 h2 => blockRC_last h1.complete h2
  | .more h1 h2 h3 => blockRC_more h1.complete h2 h3.complete
  | .panic h1 => blockRC_panic h1.complete

end

end Lol
