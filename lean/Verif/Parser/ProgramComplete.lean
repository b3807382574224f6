import Verif.Parser.ProgramLemmas
import Verif.Parser.SimpleComplete
import Verif.Parser.FuelMono

/-! # Every program of the grammar is parsed -/

namespace Lol

theorem Stmts.of_cons (c : List Token) (l : List (List Token)) : Stmts.of (c :: l) = ⟨c, l⟩ := rfl

theorem Stmts.advance_of (c : List Token) (l : List (List Token)) : Stmts.advance ⟨c, l⟩ = .of l := by
  cases l <;> rfl

/-- The keywords that end blocks. -/
def stopKeywords : List Keyword := [.IF_U_SAY_SO, .IM_OUTTA_YR, .MEBBE, .NO_WAI, .YA_RLY, .OIC, .OMG, .OMGWTF]

/-- The predicate recognises only such keywords. -/
def StopPred (stop : Token → Bool) : Prop := ∀ t, stop t = true → ∃ k ∈ stopKeywords, t.Is k

theorem stopRoot_pred : StopPred stopRoot := by simp [StopPred, stopRoot]
theorem stopFunction_pred : StopPred stopFunction := by
  intro t h
  exact ⟨_, by simp [stopKeywords], Token.isKeyword_iff.1 h⟩
theorem stopLoop_pred : StopPred stopLoop := by
  intro t h
  exact ⟨_, by simp [stopKeywords], Token.isKeyword_iff.1 h⟩
theorem stopIf_pred : StopPred stopIf := by
  intro t h
  simp only [stopIf, Bool.or_eq_true, Token.isKeyword_iff] at h
  rcases h with ((h | h) | h) | h <;> exact ⟨_, by simp [stopKeywords], h⟩
theorem stopSwitch_pred : StopPred stopSwitch := by
  intro t h
  simp only [stopSwitch, Bool.or_eq_true, Token.isKeyword_iff] at h
  rcases h with (h | h) | h <;> exact ⟨_, by simp [stopKeywords], h⟩

theorem parseStatement_stop {k : Keyword} (hk : k ∈ stopKeywords) {t : Token} (ht : t.Is k)
    (block : (Token → Bool) → Prog Block) (n : Nat) (s : Stmts) :
    exec (parseStatement block (n + 1) t) s = .err (.unexpectedToken t) s := by
  have ht : t.tokenType = _ := ht
  simp only [stopKeywords, List.mem_cons, List.not_mem_nil, or_false] at hk
  rcases hk with rfl | rfl | rfl | rfl | rfl | rfl | rfl | rfl <;>
    simp [parseStatement, VariableAccess.isValid, ht, parseExpr]

/-- No statement starts with `t` then. -/
def NotStop (t : Token) : Prop := ∀ k ∈ stopKeywords, ¬ t.Is k

theorem NotStop.of_ne {t : Token} {k : Keyword} (h : t.Is k) (hk : k ∉ stopKeywords) : NotStop t := by
  intro k' hk' h'
  have h : t.tokenType = _ := h
  have h' : t.tokenType = _ := h'
  rw [h] at h'
  cases h'
  exact hk hk'

theorem NotStop.stop {t : Token} (h : NotStop t) {stop : Token → Bool} (hs : StopPred stop) : stop t = false := by
  cases hc : stop t with
  | false => rfl
  | true =>
    obtain ⟨k, h1, h2⟩ := hs t hc
    exact absurd h2 (h k h1)

/-- What follows a block that stops at `stop`. -/
def Ends (stop : Token → Bool) (A : List (List Token)) : Prop :=
  (Stmts.of A).cur = [] ∨ ∃ t r A', A = (t :: r) :: A' ∧ stop t = true

/-- `parse_statement` gives `node` on the statements `L`. -/
def NodeC (L : List (List Token)) (node : Node) : Prop :=
  ∃ first tail rest, L = (first :: tail) :: rest ∧ NotStop first ∧ ∀ A, ∃ n0, ∀ n, n0 ≤ n → ∃ s',
    exec (parseStatement (parseBlock n) n first) ⟨tail, rest ++ A⟩ = .ok node s' ∧ s'.cur = [] ∧
      s'.advance = .of A

/-- `parse_block` gives `nodes` on the statements `L`. -/
def BlockC (L : List (List Token)) (nodes : List Node) : Prop :=
  ∀ stop, StopPred stop → ∀ A, Ends stop A → ∃ n0, ∀ n, n0 ≤ n →
    exec (parseBlock n stop) (.of (L ++ A)) = .ok nodes (.of A)

/-- The rest of `parse_block` gives `nodes` on the statements `L`. -/
def NodesC (L : List (List Token)) (nodes : List Node) : Prop :=
  ∀ stop, StopPred stop → ∀ A, Ends stop A → ∃ n0, ∀ n, n0 ≤ n → ∀ pre s, s.cur = [] →
    s.advance = .of (L ++ A) → exec (blockTail n stop pre) s = .ok (pre ++ nodes) (.of A)

theorem exec_blockTail_nil {s : Stmts} (hs : s.cur = []) (n : Nat) (stop : Token → Bool) (pre : Block) :
    exec (blockTail n stop pre) s = match s.advance.cur with
      | [] => .ok pre s.advance
      | t :: _ => if stop t then .ok pre s.advance else
          (exec (parseBlock n stop) s.advance).andThen fun more s' => .ok (pre ++ more) s' := by
  simp only [blockTail, leftover, exec_bind, exec_toResult, exec_nextStatementShouldBeEmpty, hs, if_true,
    Res.toResult_ok, Res.andThen_ok, exec_pure]
  generalize s.advance = s1
  obtain ⟨cur, later⟩ := s1
  cases cur with
  | nil => simp
  | cons t r =>
    simp only [exec_peek_cons, Res.andThen_ok, List.append_nil]
    split <;> simp

theorem nodesC_nil : NodesC [] [] := by
  intro stop _ A hA
  refine ⟨0, fun n _ pre s hs ha => ?_⟩
  rw [exec_blockTail_nil hs, ha, List.nil_append, List.append_nil]
  rcases hA with h | ⟨t, r, A', rfl, ht⟩
  · rw [h]
  · simp [Stmts.of_cons, ht]

theorem parseBlock_ok_of {L rest : List (List Token)} {node : Node} {nodes : List Node} (h1 : NodeC L node)
    (h2 : NodesC rest nodes) : BlockC (L ++ rest) (node :: nodes) := by
  obtain ⟨first, tail, rest', rfl, hn, h1⟩ := h1
  intro stop hs A hA
  obtain ⟨n1, h1⟩ := h1 (rest ++ A)
  obtain ⟨n2, h2⟩ := h2 stop hs A hA
  refine ⟨n1 + n2 + 1, fun n hn => ?_⟩
  obtain ⟨m, rfl⟩ : ∃ m, n = m + 1 := ⟨n - 1, by omega⟩
  obtain ⟨s', h3, h4, h5⟩ := h1 m (by omega)
  have h6 := h2 m (by omega) [node] s' h4 h5
  simp only [List.cons_append, Stmts.of_cons, List.append_assoc, parseBlock_cons, exec_toResult, h3,
    Res.toResult_ok, Res.andThen_ok, h6, List.nil_append]

theorem nodesC_cons {L rest : List (List Token)} {node : Node} {nodes : List Node} (h1 : NodeC L node)
    (h2 : NodesC rest nodes) : NodesC (L ++ rest) (node :: nodes) := by
  intro stop hs A hA
  obtain ⟨n0, h⟩ := parseBlock_ok_of h1 h2 stop hs A hA
  refine ⟨n0, fun n hn pre s hs' ha => ?_⟩
  rw [exec_blockTail_nil hs', ha, h n hn]
  obtain ⟨first, tail, rest', rfl, hns, -⟩ := h1
  simp [Stmts.of_cons, hns.stop hs]

theorem blockC_skip {rest : List (List Token)} {nodes : List Node} (h : NodesC rest nodes) :
    BlockC ([] :: rest) nodes := by
  intro stop hs A hA
  obtain ⟨n0, h⟩ := h stop hs A hA
  refine ⟨n0 + 1, fun n hn => ?_⟩
  obtain ⟨m, rfl⟩ : ∃ m, n = m + 1 := ⟨n - 1, by omega⟩
  have := h m (by omega) [] ⟨[], rest ++ A⟩ rfl (Stmts.advance_of _ _)
  simp only [List.cons_append, Stmts.of_cons, parseBlock_nil, this, List.nil_append]

theorem nodeC_simple {ts : List Token} {node : Node} (h : SimpleG [] ts node) : NodeC [ts] node := by
  obtain ⟨first, tail, rfl, h0⟩ := h.complete []
  refine ⟨first, tail, [], rfl, ?_, fun A => ?_⟩
  · intro k hk h'
    have := h0 (parseBlock 0) (tail.length + 2 + 0) (by simp)
    rw [parseStatement_stop hk h'] at this
    cases this
  · obtain ⟨first', tail', h2, h1⟩ := h.complete A
    cases h2
    refine ⟨tail.length + 2, fun n hn => ⟨⟨[], A⟩, ?_, rfl, Stmts.advance_of _ _⟩⟩
    have := h1 (parseBlock n) n (by simp; omega)
    simpa using this

theorem notValid_keyword {t : Token} {k : Keyword} (h : t.Is k) (hs : k ≠ .SRS) :
    VariableAccess.isValid t = false := by
  have h : t.tokenType = _ := h
  unfold VariableAccess.isValid
  rw [h]
  split <;> simp_all

theorem nodeC_hai {t : Token} {version : List Token} (h : t.Is .HAI) :
    NodeC [t :: version, []] (.hai ⟨t, version⟩) := by
  refine ⟨t, version, [[]], rfl, .of_ne h (by decide), fun A => ⟨0, fun n _ => ⟨⟨[], A⟩, ?_, rfl,
    Stmts.advance_of _ _⟩⟩⟩
  have hv := notValid_keyword h (by decide)
  have h : t.tokenType = _ := h
  simp [parseStatement, hv, h, Hai.parse, Stmts.advance]

theorem ConditionG.first {ts : List Token} {c : Option LoopCondition} (h : ConditionG ts c) :
    NoSlot ts ∧ ∀ t r, ts = t :: r → t.isKeyword .UPPIN = false ∧ t.isKeyword .NERFIN = false := by
  cases h with
  | none => exact ⟨NoSlot.nil, by simp⟩
  | til h1 h2 =>
    refine ⟨NoSlot.keyword h1, ?_⟩
    rintro t r h
    simp only [List.cons.injEq] at h
    obtain ⟨rfl, -⟩ := h
    exact ⟨isKeyword_false h1 (by decide), isKeyword_false h1 (by decide)⟩
  | wile h1 h2 =>
    refine ⟨NoSlot.keyword h1, ?_⟩
    rintro t r h
    simp only [List.cons.injEq] at h
    obtain ⟨rfl, -⟩ := h
    exact ⟨isKeyword_false h1 (by decide), isKeyword_false h1 (by decide)⟩

theorem nodeC_loop {t label : Token} {ops conds : List Token} {op : Option LoopIterationOperation}
    {cond : Option LoopCondition} {body : List (List Token)} {nodes : List Node} {c endLabel : Token}
    (h1 : t.Is .IM_IN_YR) (h2 : label.IsIdent) (h3 : IterationG ops op) (h4 : ConditionG conds cond)
    (h5 : BlockC body nodes) (h6 : c.Is .IM_OUTTA_YR) (h7 : endLabel.IsIdent) :
    NodeC ((t :: label :: (ops ++ conds)) :: (body ++ [[c, endLabel]]))
        (.imInYr t label op cond nodes endLabel) := by
  refine ⟨t, _, _, rfl, .of_ne h1 (by decide), fun A => ?_⟩
  obtain ⟨n0, h5⟩ := h5 stopLoop stopLoop_pred ([c, endLabel] :: A)
    (.inr ⟨c, _, _, rfl, isKeyword_true h6⟩)
  refine ⟨n0 + ops.length + conds.length + 1, fun n hn => ⟨⟨[], A⟩, ?_, rfl, Stmts.advance_of _ _⟩⟩
  have hv := notValid_keyword h1 (by decide)
  have h1 : t.tokenType = _ := h1
  have h8 := parseIterationOperation_complete h3 h4.first.1 h4.first.2 ((body ++ [[c, endLabel]]) ++ A) n (by omega)
  have h9 := parseConditional_complete h4 ((body ++ [[c, endLabel]]) ++ A) n (by omega)
  have h5 := h5 n (by omega)
  have h2 := Token.isIdentifier_iff.2 h2
  have h7 := Token.isIdentifier_iff.2 h7
  simp only [List.append_assoc, List.cons_append, List.nil_append] at h8 h9
  simp [parseStatement, hv, h1, parseImInYr, h2, h8, h9, Stmts.advance_of, h5, Stmts.of_cons, h7]

theorem nodeC_function {t : Token} {i : Identifier} {ps : List Token} {params : List Identifier}
    {body : List (List Token)} {nodes : List Node} {c : Token} (h1 : t.Is .HOW_IZ_I) (h2 : i.WF)
    (h3 : ParamsG ps params) (h4 : BlockC body nodes) (h5 : c.Is .IF_U_SAY_SO) :
    NodeC ((t :: (i.toks ++ ps)) :: (body ++ [[c], []])) (.howIzI t i params nodes) := by
  refine ⟨t, _, _, rfl, .of_ne h1 (by decide), fun A => ?_⟩
  obtain ⟨n0, h4⟩ := h4 stopFunction stopFunction_pred ([c] :: [] :: A)
    (.inr ⟨c, _, _, rfl, isKeyword_true h5⟩)
  refine ⟨n0 + ps.length + 1, fun n hn => ⟨⟨[], A⟩, ?_, rfl, Stmts.advance_of _ _⟩⟩
  have hv := notValid_keyword h1 (by decide)
  have h1 : t.tokenType = _ := h1
  obtain ⟨u, us, h6, -, -, h7⟩ := Identifier.parse_complete i h2 ps ((body ++ [[c], []]) ++ A)
  have h8 := parseParameters_complete h3 ((body ++ [[c], []]) ++ A) n (by omega)
  have h4 := h4 n (by omega)
  have h5 := isKeyword_true h5
  simp only [List.append_assoc, List.cons_append, List.nil_append] at h7 h8
  simp [parseStatement, hv, h1, parseHowIzI, h6, h7, h8, Stmts.advance_of, h4, Stmts.of_cons, h5]

/-- The cases of a switch are followed by the default case or the end. -/
def SwitchEnd (A : List (List Token)) : Prop := ∃ t r A', A = (t :: r) :: A' ∧ (t.Is .OMGWTF ∨ t.Is .OIC)

/-- The `OMG` loop gives `omgs` on the statements `L`. -/
def OmgsC (L : List (List Token)) (omgs : List WtfOmg) : Prop :=
  (L = [] ∨ ∃ t r L', L = (t :: r) :: L' ∧ t.Is .OMG) ∧
  ∀ A, SwitchEnd A → ∃ n0, ∀ n m, n0 ≤ n → n0 ≤ m →
    exec (parseOmgs (parseBlock n) n m) (.of (L ++ A)) = .ok omgs (.of A)

theorem omgsC_nil : OmgsC [] [] := by
  refine ⟨.inl rfl, fun A hA => ⟨1, fun n m _ hm => ?_⟩⟩
  obtain ⟨m, rfl⟩ : ∃ k, m = k + 1 := ⟨m - 1, by omega⟩
  obtain ⟨t, r, A', rfl, h⟩ := hA
  have : t.isKeyword .OMG = false := by
    rcases h with h | h <;> exact isKeyword_false h (by decide)
  simp [parseOmgs, Stmts.of_cons, this]

theorem omgsC_cons {t : Token} {e : Expr} {body rest : List (List Token)} {nodes : List Node}
    {omgs : List WtfOmg} (h1 : t.Is .OMG) (h2 : e.WF) (h3 : BlockC body nodes) (h4 : OmgsC rest omgs) :
    OmgsC ((t :: e.toks) :: (body ++ rest)) (.mk t e nodes :: omgs) := by
  obtain ⟨hrest, h4⟩ := h4
  refine ⟨.inr ⟨_, _, _, rfl, h1⟩, fun A hA => ?_⟩
  obtain ⟨n1, h4⟩ := h4 A hA
  obtain ⟨n2, h3⟩ := h3 stopSwitch stopSwitch_pred (rest ++ A) (by
    right
    rcases hrest with rfl | ⟨t, r, L', rfl, h⟩
    · obtain ⟨t, r, A', rfl, h⟩ := hA
      refine ⟨t, r, A', rfl, ?_⟩
      rcases h with h | h <;> simp [stopSwitch, isKeyword_true h]
    · exact ⟨t, r, _, rfl, by simp [stopSwitch, isKeyword_true h]⟩)
  refine ⟨n1 + n2 + e.toks.length + 2, fun n m hn hm => ?_⟩
  obtain ⟨m, rfl⟩ : ∃ k, m = k + 1 := ⟨m - 1, by omega⟩
  obtain ⟨u, us, h5, h6⟩ := parseExpr_complete' h2 (rest := []) ⟨fun _ => rfl, fun _ => NoSlot.nil⟩
    (body ++ (rest ++ A))
  have h6 := h6 n (by simp [h5] at hn ⊢; omega)
  have h4 := h4 n m (by omega) (by omega)
  have h3 := h3 n (by omega)
  rw [List.append_nil] at h6
  simp [parseOmgs, Stmts.of_cons, isKeyword_true h1, h5, h6, Stmts.advance_of, h3, h4]

/-- The default case of a switch gives `o` on the statements `L`. -/
def OmgWtfC (L : List (List Token)) (o : Option WtfOmgWtf) : Prop :=
  (L = [] ∨ ∃ t r L', L = (t :: r) :: L' ∧ t.Is .OMGWTF) ∧
  ∀ t r A, t.Is .OIC → ∃ n0, ∀ n, n0 ≤ n →
    exec (parseOmgWtf (parseBlock n)) (.of (L ++ (t :: r) :: A)) = .ok o ⟨t :: r, A⟩

theorem omgWtfC_none : OmgWtfC [] none := by
  refine ⟨.inl rfl, fun t r A h => ⟨0, fun n _ => ?_⟩⟩
  simp [parseOmgWtf, Stmts.of_cons, isKeyword_false h (by decide : Keyword.OIC ≠ .OMGWTF)]

theorem omgWtfC_some {t : Token} {body : List (List Token)} {nodes : List Node} (h1 : t.Is .OMGWTF)
    (h2 : BlockC body nodes) : OmgWtfC ([t] :: body) (some (.mk t nodes)) := by
  refine ⟨.inr ⟨_, _, _, rfl, h1⟩, fun u r A h => ?_⟩
  obtain ⟨n0, h2⟩ := h2 stopSwitch stopSwitch_pred ((u :: r) :: A)
    (.inr ⟨u, r, A, rfl, by simp [stopSwitch, isKeyword_true h]⟩)
  refine ⟨n0, fun n hn => ?_⟩
  simp [parseOmgWtf, Stmts.of_cons, isKeyword_true h1, Stmts.advance_of, h2 n hn]

theorem nodeC_switch {t q : Token} {cases : List (List Token)} {omgs : List WtfOmg} {dflt : List (List Token)}
    {omgWtf : Option WtfOmgWtf} {c : Token} (h1 : t.Is .WTF) (h2 : q.IsQuestion) (h3 : OmgsC cases omgs)
    (h4 : OmgWtfC dflt omgWtf) (h5 : c.Is .OIC) :
    NodeC ([t, q] :: (cases ++ (dflt ++ [[c], []]))) (.wtf t omgs omgWtf) := by
  refine ⟨t, _, _, rfl, .of_ne h1 (by decide), fun A => ?_⟩
  obtain ⟨hd, h4⟩ := h4
  obtain ⟨n1, h3⟩ := h3.2 (dflt ++ [c] :: [] :: A) (by
    rcases hd with rfl | ⟨u, r, L', rfl, h⟩
    · exact ⟨c, [], _, rfl, .inr h5⟩
    · exact ⟨u, r, _, rfl, .inl h⟩)
  obtain ⟨n2, h4⟩ := h4 c [] ([] :: A) h5
  refine ⟨n1 + n2, fun n hn => ⟨⟨[], A⟩, ?_, rfl, Stmts.advance_of _ _⟩⟩
  have hv := notValid_keyword h1 (by decide)
  have h1 : t.tokenType = _ := h1
  have h2 := Token.isQuestion_iff.2 h2
  have h3 := h3 n n (by omega) (by omega)
  have h4 := h4 n (by omega)
  have h5 := isKeyword_true h5
  simp [parseStatement, hv, h1, parseWtf, h2, h3, h4, Stmts.advance_of, Stmts.of_cons, h5]

/-- The `YA RLY` part gives `o` on the statements `L`. -/
def YaRlyC (L : List (List Token)) (o : Option YaRly) : Prop :=
  ∀ t r A, t.Is .MEBBE ∨ t.Is .NO_WAI ∨ t.Is .OIC → ∃ n0, ∀ n, n0 ≤ n →
    exec (parseYaRly (parseBlock n)) (.of (L ++ (t :: r) :: A)) = .ok o ⟨t :: r, A⟩

theorem yaRlyC_none : YaRlyC [] none := by
  refine fun t r A h => ⟨0, fun n _ => ?_⟩
  have : t.isKeyword .YA_RLY = false := by
    rcases h with h | h | h <;> exact isKeyword_false h (by decide)
  simp [parseYaRly, Stmts.of_cons, this]

theorem yaRlyC_some {t : Token} {body : List (List Token)} {nodes : List Node} (h1 : t.Is .YA_RLY)
    (h2 : BlockC body nodes) : YaRlyC ([t] :: body) (some (.mk t nodes)) := by
  refine fun u r A h => ?_
  obtain ⟨n0, h2⟩ := h2 stopIf stopIf_pred ((u :: r) :: A)
    (.inr ⟨u, r, A, rfl, by rcases h with h | h | h <;> simp [stopIf, isKeyword_true h]⟩)
  refine ⟨n0, fun n hn => ?_⟩
  simp [parseYaRly, Stmts.of_cons, isKeyword_true h1, Stmts.advance_of, h2 n hn]

/-- The `NO WAI` part gives `o` on the statements `L`. -/
def NoWaiC (L : List (List Token)) (o : Option NoWai) : Prop :=
  (L = [] ∨ ∃ t r L', L = (t :: r) :: L' ∧ t.Is .NO_WAI) ∧
  ∀ t r A, t.Is .OIC → ∃ n0, ∀ n, n0 ≤ n →
    exec (parseNoWai (parseBlock n)) (.of (L ++ (t :: r) :: A)) = .ok o ⟨t :: r, A⟩

theorem noWaiC_none : NoWaiC [] none := by
  refine ⟨.inl rfl, fun t r A h => ⟨0, fun n _ => ?_⟩⟩
  simp [parseNoWai, Stmts.of_cons, isKeyword_false h (by decide : Keyword.OIC ≠ .NO_WAI)]

theorem noWaiC_some {t : Token} {body : List (List Token)} {nodes : List Node} (h1 : t.Is .NO_WAI)
    (h2 : BlockC body nodes) : NoWaiC ([t] :: body) (some (.mk t nodes)) := by
  refine ⟨.inr ⟨_, _, _, rfl, h1⟩, fun u r A h => ?_⟩
  obtain ⟨n0, h2⟩ := h2 stopIf stopIf_pred ((u :: r) :: A)
    (.inr ⟨u, r, A, rfl, by simp [stopIf, isKeyword_true h]⟩)
  refine ⟨n0, fun n hn => ?_⟩
  simp [parseNoWai, Stmts.of_cons, isKeyword_true h1, Stmts.advance_of, h2 n hn]

/-- The `MEBBE` loop gives `mebbes` on the statements `L`. -/
def MebbesC (L : List (List Token)) (mebbes : List Mebbe) : Prop :=
  (L = [] ∨ ∃ t r L', L = (t :: r) :: L' ∧ t.Is .MEBBE) ∧
  ∀ t r A, t.Is .NO_WAI ∨ t.Is .OIC → ∃ n0, ∀ n m, n0 ≤ n → n0 ≤ m →
    exec (parseMebbes (parseBlock n) n m) (.of (L ++ (t :: r) :: A)) = .ok mebbes ⟨t :: r, A⟩

theorem mebbesC_nil : MebbesC [] [] := by
  refine ⟨.inl rfl, fun t r A h => ⟨1, fun n m _ hm => ?_⟩⟩
  obtain ⟨m, rfl⟩ : ∃ k, m = k + 1 := ⟨m - 1, by omega⟩
  have : ¬ t.tokenType = .keyword .MEBBE := by
    rcases h with h | h <;> (have h : t.tokenType = _ := h; simp [h])
  simp [parseMebbes, Stmts.of_cons, this]

theorem mebbesC_cons {t : Token} {e : Expr} {body rest : List (List Token)} {nodes : List Node}
    {mebbes : List Mebbe} (h1 : t.Is .MEBBE) (h2 : e.WF) (h3 : BlockC body nodes) (h4 : MebbesC rest mebbes) :
    MebbesC ((t :: e.toks) :: (body ++ rest)) (.mk t e nodes :: mebbes) := by
  obtain ⟨hrest, h4⟩ := h4
  refine ⟨.inr ⟨_, _, _, rfl, h1⟩, fun v r A hA => ?_⟩
  obtain ⟨n1, h4⟩ := h4 v r A hA
  obtain ⟨n2, h3⟩ := h3 stopIf stopIf_pred (rest ++ (v :: r) :: A) (by
    right
    rcases hrest with rfl | ⟨t, r, L', rfl, h⟩
    · refine ⟨v, r, A, rfl, ?_⟩
      rcases hA with h | h <;> simp [stopIf, isKeyword_true h]
    · exact ⟨t, r, _, rfl, by simp [stopIf, isKeyword_true h]⟩)
  refine ⟨n1 + n2 + e.toks.length + 2, fun n m hn hm => ?_⟩
  obtain ⟨m, rfl⟩ : ∃ k, m = k + 1 := ⟨m - 1, by omega⟩
  obtain ⟨u, us, h5, h6⟩ := parseExpr_complete' h2 (rest := []) ⟨fun _ => rfl, fun _ => NoSlot.nil⟩
    (body ++ (rest ++ (v :: r) :: A))
  have h6 := h6 n (by simp [h5] at hn ⊢; omega)
  have h4 := h4 n m (by omega) (by omega)
  have h3 := h3 n (by omega)
  have h1 : t.tokenType = _ := h1
  rw [List.append_nil] at h6
  simp [parseMebbes, Stmts.of_cons, h1, h5, h6, Stmts.advance_of, h3, h4]

theorem nodeC_conditional {t q : Token} {yes : List (List Token)} {yaRly : Option YaRly}
    {maybe : List (List Token)} {mebbes : List Mebbe} {no : List (List Token)} {noWai : Option NoWai} {c : Token}
    (h1 : t.Is .O_RLY) (h2 : q.IsQuestion) (h3 : YaRlyC yes yaRly) (h4 : MebbesC maybe mebbes)
    (h5 : NoWaiC no noWai) (h6 : c.Is .OIC) :
    NodeC ([t, q] :: (yes ++ (maybe ++ (no ++ [[c]])))) (.oRly t yaRly noWai mebbes) := by
  refine ⟨t, _, _, rfl, .of_ne h1 (by decide), fun A => ?_⟩
  obtain ⟨hm, h4⟩ := h4
  obtain ⟨hn, h5⟩ := h5
  obtain ⟨n3, h5⟩ := h5 c [] A h6
  have hno : ∃ u r A', no ++ [c] :: A = (u :: r) :: A' ∧ (u.Is .NO_WAI ∨ u.Is .OIC) := by
    rcases hn with rfl | ⟨u, r, L', rfl, h⟩
    · exact ⟨c, [], A, rfl, .inr h6⟩
    · exact ⟨u, r, _, rfl, .inl h⟩
  obtain ⟨u, r, A', hA', hu⟩ := hno
  obtain ⟨n2, h4⟩ := h4 u r A' hu
  have hmaybe : ∃ w r2 A2, maybe ++ (u :: r) :: A' = (w :: r2) :: A2 ∧
      (w.Is .MEBBE ∨ w.Is .NO_WAI ∨ w.Is .OIC) := by
    rcases hm with rfl | ⟨w, r, L', rfl, h⟩
    · exact ⟨u, r, A', rfl, .inr hu⟩
    · exact ⟨w, r, _, rfl, .inl h⟩
  obtain ⟨w, r2, A2, hA2, hw⟩ := hmaybe
  obtain ⟨n1, h3⟩ := h3 w r2 A2 hw
  refine ⟨n1 + n2 + n3, fun n hn => ⟨⟨[], A⟩, ?_, rfl, Stmts.advance_of _ _⟩⟩
  have hv := notValid_keyword h1 (by decide)
  have h1 : t.tokenType = _ := h1
  have h2 := Token.isQuestion_iff.2 h2
  have h3 := h3 n (by omega)
  have h4 := h4 n n (by omega) (by omega)
  have h5 := h5 n (by omega)
  have h6 := isKeyword_true h6
  have e1 : (⟨w :: r2, A2⟩ : Stmts) = .of (maybe ++ (u :: r) :: A') := by rw [hA2]; rfl
  have e2 : (⟨u :: r, A'⟩ : Stmts) = .of (no ++ [c] :: A) := by rw [hA']; rfl
  have e3 : yes ++ (maybe ++ (no ++ [c] :: A)) = yes ++ (w :: r2) :: A2 := by rw [hA', hA2]
  simp [parseStatement, hv, h1, parseORly, h2, Stmts.advance_of, e3, h3, e1, h4, e2, h5, h6]

mutual

theorem NodeG.complete {L : List (List Token)} {node : Node} : NodeG L node → NodeC L node
  | .simple h => nodeC_simple h
  | .hai h => nodeC_hai h
  | .loop h1 h2 h3 h4 h5 h6 h7 => nodeC_loop h1 h2 h3 h4 h5.complete h6 h7
  | .function h1 h2 h3 h4 h5 => nodeC_function h1 h2 h3 h4.complete h5
  | .switch h1 h2 h3 h4 h5 => nodeC_switch h1 h2 h3.complete h4.complete h5
  | .conditional h1 h2 h3 h4 h5 h6 => nodeC_conditional h1 h2 h3.complete h4.complete h5.complete h6

theorem OmgsG.complete {L : List (List Token)} {omgs : List WtfOmg} : OmgsG L omgs → OmgsC L omgs
  | .nil => omgsC_nil
  | .cons h1 h2 h3 h4 => omgsC_cons h1 h2 h3.complete h4.complete

theorem OmgWtfG.complete {L : List (List Token)} {o : Option WtfOmgWtf} : OmgWtfG L o → OmgWtfC L o
  | .none => omgWtfC_none
  | .some h1 h2 => omgWtfC_some h1 h2.complete

theorem YaRlyG.complete {L : List (List Token)} {o : Option YaRly} : YaRlyG L o → YaRlyC L o
  | .none => yaRlyC_none
  | .some h1 h2 => yaRlyC_some h1 h2.complete

theorem MebbesG.complete {L : List (List Token)} {mebbes : List Mebbe} : MebbesG L mebbes → MebbesC L mebbes
  | .nil => mebbesC_nil
  | .cons h1 h2 h3 h4 => mebbesC_cons h1 h2 h3.complete h4.complete

theorem NoWaiG.complete {L : List (List Token)} {o : Option NoWai} : NoWaiG L o → NoWaiC L o
  | .none => noWaiC_none
  | .some h1 h2 => noWaiC_some h1 h2.complete

theorem BlockG.complete {L : List (List Token)} {nodes : List Node} : BlockG L nodes → BlockC L nodes
  | .nodes h1 h2 => parseBlock_ok_of h1.complete h2.complete
  | .skip h => blockC_skip h.complete

theorem NodesG.complete {L : List (List Token)} {nodes : List Node} : NodesG L nodes → NodesC L nodes
  | .nil => nodesC_nil
  | .cons h1 h2 => nodesC_cons h1.complete h2.complete

end

end Lol
