import Verif.Parser.ReadFacts
import Verif.Parser.ConstructSpec

/-! # Block constructs: lemmas -/

namespace Lol

theorem ConditionG.condR {conds : List Token} {cond : Option LoopCondition} (h : ConditionG conds cond) :
    CondR [] conds cond := by
  cases h with
  | none => exact .none (fun _ _ h => by cases h) (fun _ _ h => by cases h)
  | til h1 h2 => exact .til h1 h2 ⟨fun _ => rfl, fun _ => NoSlot.nil⟩
  | wile h1 h2 => exact .wile h1 h2 ⟨fun _ => rfl, fun _ => NoSlot.nil⟩

theorem CondR.conditionG {conds : List Token} {cond : Option LoopCondition} (h : CondR [] conds cond) :
    ConditionG conds cond := by
  cases h with
  | none => exact .none
  | til h1 h2 => exact .til h1 h2
  | wile h1 h2 => exact .wile h1 h2

theorem ConditionG.notFirst {conds : List Token} {cond : Option LoopCondition} (h : ConditionG conds cond)
    {k : Keyword} (h1 : k ≠ .TIL) (h2 : k ≠ .WILE) : NotFirst k conds := by
  intro t r he hk
  cases h with
  | none => cases he
  | til h _ =>
    cases he
    have h : _ = _ := h
    have hk : _ = _ := hk
    rw [h] at hk
    cases hk
    exact h1 rfl
  | wile h _ =>
    cases he
    have h : _ = _ := h
    have hk : _ = _ := hk
    rw [h] at hk
    cases hk
    exact h2 rfl

theorem ConditionG.noSlot {conds : List Token} {cond : Option LoopCondition} (h : ConditionG conds cond) :
    NoSlot conds := by
  intro t r he hk
  cases h with
  | none => cases he
  | til h _ => cases he; have h : _ = _ := h; rw [h] at hk; cases hk
  | wile h _ => cases he; have h : _ = _ := h; rw [h] at hk; cases hk

theorem loopHead_iff {ts : List Token} {t label : Token} {op : Option LoopIterationOperation}
    {cond : Option LoopCondition} : HeadR [] ts (.loop t label op cond) ↔ LoopHead ts t label op cond := by
  constructor
  · intro h
    cases h with
    | loop h1 h2 h3 h4 =>
      refine ⟨_, _, rfl, h1, h2, ?_, h4.conditionG⟩
      cases h3 with
      | none => exact .none
      | some h1 h2 h3 => exact .some h1 h2 h3
  · rintro ⟨ops, conds, rfl, h1, h2, h3, h4⟩
    refine .loop h1 h2 ?_ h4.condR
    rw [List.append_nil]
    cases h3 with
    | none => exact .none (h4.notFirst (by decide) (by decide)) (h4.notFirst (by decide) (by decide))
    | some h1 h2 h3 => exact .some h1 h2 h3 h4.noSlot

theorem ParamsG.paramsR {ps : List Token} {params : List Identifier} (h : ParamsG ps params) :
    ParamsR [] ps params := by
  induction h with
  | nil => exact .nil fun _ _ h => by cases h
  | one h1 h2 => exact .one h1 h2 fun _ _ h => by cases h
  | cons h1 h2 h3 _ ih => exact .cons h1 h2 h3 ih

theorem ParamsR.paramsG {ps : List Token} {params : List Identifier} (h : ParamsR [] ps params) :
    ParamsG ps params := by
  induction h with
  | nil => exact .nil
  | one h1 h2 => exact .one h1 h2
  | cons h1 h2 h3 _ ih => exact .cons h1 h2 h3 ih

theorem functionHead_iff {ts : List Token} {t : Token} {name : Identifier} {params : List Identifier} :
    HeadR [] ts (.function t name params) ↔ FunctionHead ts t name params := by
  constructor
  · intro h
    cases h with
    | function h1 h2 h3 => exact ⟨_, rfl, h1, h2, h3.paramsG⟩
  · rintro ⟨ps, rfl, h1, h2, h3⟩
    exact .function h1 h2 h3.paramsR

theorem switchHead_iff {ts : List Token} {t : Token} :
    HeadR [] ts (.switch t) ↔ ∃ q, ts = [t, q] ∧ t.Is .WTF ∧ q.IsQuestion := by
  constructor
  · intro h
    cases h with
    | switch h1 h2 => exact ⟨_, rfl, h1, h2⟩
  · rintro ⟨q, rfl, h1, h2⟩
    exact .switch h1 h2

theorem conditionalHead_iff {ts : List Token} {t : Token} :
    HeadR [] ts (.conditional t) ↔ ∃ q, ts = [t, q] ∧ t.Is .O_RLY ∧ q.IsQuestion := by
  constructor
  · intro h
    cases h with
    | conditional h1 h2 => exact ⟨_, rfl, h1, h2⟩
  · rintro ⟨q, rfl, h1, h2⟩
    exact .conditional h1 h2

/-! ## Nodes of constructs -/

theorem BlockR.loopEnd {s : Stmts} {body : Block} {c : Token} {rest : List Token} {l : List (List Token)}
    (h : BlockR closeLoop s (.ok body ⟨c :: rest, l⟩)) : c.Is .IM_OUTTA_YR := by
  rcases h.stop _ _ rfl with h | ⟨t, r, h, k, hk, ht⟩
  · cases h
  · cases h
    simp only [closeLoop, List.mem_singleton] at hk
    subst hk
    exact ht

theorem NodeR.loop_iff {ts : List Token} {later : List (List Token)} {t label : Token}
    {op : Option LoopIterationOperation} {cond : Option LoopCondition} {body : Block} {endLabel : Token}
    {rest : List Token} {l : List (List Token)} :
    NodeR ⟨ts, later⟩ (.ok (.imInYr t label op cond body endLabel) ⟨rest, l⟩) ↔
      LoopAt ts later t label op cond body endLabel rest l := by
  constructor
  · intro h
    generalize hs : Stmts.mk ts later = s at h
    generalize hr : Read.ok _ _ = r at h
    cases h with
    | loop h1 h2 h3 => cases hs; cases hr; exact ⟨_, loopHead_iff.1 h1, h2, h2.loopEnd, h3⟩
    | simple h => cases hr; cases h
    | simpleFail | headFail | switchCases | switchDefault | conditionalYes | conditionalMaybe | conditionalNo =>
      exact absurd hr.symm Fail.read_ne_ok
    | _ => cases hr
  · rintro ⟨c, h1, h2, h3, h4⟩
    exact .loop (loopHead_iff.2 h1) h2 h4

theorem NodeR.function_iff {ts : List Token} {later : List (List Token)} {t : Token} {name : Identifier}
    {params : List Identifier} {body : Block} {s' : Stmts} :
    NodeR ⟨ts, later⟩ (.ok (.howIzI t name params body) s') ↔
      ∃ l, FunctionAt ts later t name params body l ∧ s' = .of l := by
  constructor
  · intro h
    generalize hs : Stmts.mk ts later = s at h
    generalize hr : Read.ok _ _ = r at h
    cases h with
    | function h1 h2 => cases hs; cases hr; exact ⟨_, ⟨_, functionHead_iff.1 h1, h2, h2.functionEnd⟩, rfl⟩
    | simple h => cases hr; cases h
    | simpleFail | headFail | switchCases | switchDefault | conditionalYes | conditionalMaybe | conditionalNo =>
      exact absurd hr.symm Fail.read_ne_ok
    | _ => cases hr
  · rintro ⟨l, ⟨c, h1, h2, h3⟩, rfl⟩
    exact .function (functionHead_iff.2 h1) h2

theorem NodeR.switch_iff {ts : List Token} {later : List (List Token)} {t : Token} {omgs : List WtfOmg}
    {omgWtf : Option WtfOmgWtf} {s' : Stmts} :
    NodeR ⟨ts, later⟩ (.ok (.wtf t omgs omgWtf) s') ↔ ∃ l, SwitchAt ts later t omgs omgWtf l ∧ s' = .of l := by
  constructor
  · intro h
    generalize hs : Stmts.mk ts later = s at h
    generalize hr : Read.ok _ _ = r at h
    cases h with
    | switch h1 h2 h3 h4 =>
      cases hs; cases hr
      obtain ⟨q, rfl, h5, h6⟩ := switchHead_iff.1 h1
      exact ⟨_, ⟨q, _, _, rfl, h5, h6, h2, h3, h4⟩, rfl⟩
    | simple h => cases hr; cases h
    | simpleFail | headFail | switchCases | switchDefault | conditionalYes | conditionalMaybe | conditionalNo =>
      exact absurd hr.symm Fail.read_ne_ok
    | _ => cases hr
  · rintro ⟨l, ⟨q, s1, c, h1, h2, h3, h4, h5, h6⟩, rfl⟩
    exact .switch (switchHead_iff.2 ⟨q, h1, h2, h3⟩) h4 h5 h6

theorem NodeR.conditional_iff {ts : List Token} {later : List (List Token)} {t : Token} {yaRly : Option YaRly}
    {noWai : Option NoWai} {mebbes : List Mebbe} {rest : List Token} {l : List (List Token)} :
    NodeR ⟨ts, later⟩ (.ok (.oRly t yaRly noWai mebbes) ⟨rest, l⟩) ↔
      ConditionalAt ts later t yaRly noWai mebbes rest l := by
  constructor
  · intro h
    generalize hs : Stmts.mk ts later = s at h
    generalize hr : Read.ok _ _ = r at h
    cases h with
    | conditional h1 h2 h3 h4 h5 =>
      cases hs; cases hr
      obtain ⟨q, rfl, h6, h7⟩ := conditionalHead_iff.1 h1
      exact ⟨q, _, _, _, rfl, h6, h7, h2, h3, h4, h5⟩
    | simple h => cases hr; cases h
    | simpleFail | headFail | switchCases | switchDefault | conditionalYes | conditionalMaybe | conditionalNo =>
      exact absurd hr.symm Fail.read_ne_ok
    | _ => cases hr
  · rintro ⟨q, s1, s2, c, h1, h2, h3, h4, h5, h6, h7⟩
    exact .conditional (conditionalHead_iff.2 ⟨q, h1, h2, h3⟩) h4 h5 h6 h7

/-! ## Trees -/

theorem reaches_node {start s : Stmts} {before tree : Block} {node : Node} {rest : List Token}
    {l : List (List Token)} (h : Reaches start before s) (hn : NodeR s (.ok node ⟨rest, l⟩))
    (ht : parseStmts start = .ok tree) : Follows tree before node rest := by
  rw [h.parse, parseStmts_node hn] at ht
  cases hr : parseRest l with
  | ok more =>
    rw [hr] at ht
    cases ht
    exact ⟨more, by simp⟩
  | panic p => rw [hr] at ht; cases ht
  | outOfFuel => rw [hr] at ht; cases ht

theorem reaches_error {start s : Stmts} {before tree : Block} {e : ASTError} {rest : List Token}
    {l : List (List Token)} (h : Reaches start before s) (hn : NodeR s (.error e ⟨rest, l⟩))
    (ht : parseStmts start = .ok tree) : Follows tree before (.astError e) rest := by
  rw [h.parse, parseStmts_node_error hn] at ht
  cases hr : parseRest l with
  | ok more =>
    rw [hr] at ht
    cases ht
    exact ⟨more, by simp⟩
  | panic p => rw [hr] at ht; cases ht
  | outOfFuel => rw [hr] at ht; cases ht

theorem Reaches.parse_at {start s : Stmts} {before tree more : Block} (h : Reaches start before s)
    (ht : parseStmts start = .ok tree) (hm : tree = before ++ more) : parseStmts s = .ok more := by
  rw [h.parse] at ht
  cases hr : parseStmts s with
  | ok more' =>
    rw [hr, hm] at ht
    simp only [Out.bind, Out.ok.injEq, List.append_cancel_left_eq] at ht
    rw [ht]
  | panic p => rw [hr] at ht; cases ht
  | outOfFuel => rw [hr] at ht; cases ht

theorem parseStmts_first {s : Stmts} {node : Node} {more : Block} (h : parseStmts s = .ok (node :: more))
    (hs : s.cur ≠ []) :
    (∃ rest l, NodeR s (.ok node ⟨rest, l⟩)) ∨ ∃ e rest l, node = .astError e ∧ NodeR s (.error e ⟨rest, l⟩) := by
  obtain ⟨s', h⟩ := parseStmts_ok_iff.1 h
  have hstep : ∃ nodes s1, StepR s (.ok nodes s1) ∧ ∃ more', node :: more = nodes ++ more' := by
    generalize hr : Read.ok _ _ = r at h
    cases h with
    | last h _ => cases hr; exact ⟨_, _, h, [], by simp⟩
    | @more _ _ _ _ r h _ _ =>
      cases r with
      | ok a s1 =>
        simp only [Read.map, Read.ok.injEq] at hr
        exact ⟨_, _, h, a, hr.1⟩
      | error => cases hr
      | panic => cases hr
    | panic => cases hr
  obtain ⟨nodes, s1, hstep, more', he⟩ := hstep
  generalize hr : Read.ok nodes s1 = r at hstep
  cases hstep with
  | empty => exact absurd rfl hs
  | ok h1 => cases hr; cases he; exact .inl ⟨_, _, h1⟩
  | error h1 => cases hr; cases he; exact .inr ⟨_, _, _, rfl, h1⟩
  | panic => cases hr

theorem hasNode_iff {start s : Stmts} {before tree : Block} {node : Node} (h : Reaches start before s)
    (ht : parseStmts start = .ok tree) (hs : s.cur ≠ []) (hn : ∀ e, node ≠ .astError e) :
    HasNode tree before node ↔ ∃ rest l, NodeR s (.ok node ⟨rest, l⟩) := by
  constructor
  · rintro ⟨more, hm⟩
    rcases parseStmts_first (h.parse_at ht hm) hs with h | ⟨e, _, _, he, _⟩
    · exact h
    · exact absurd he (hn e)
  · rintro ⟨rest, l, h1⟩
    obtain ⟨more, hm⟩ := reaches_node h h1 ht
    exact ⟨_, hm⟩

theorem readIn_iff {s : Stmts} {node : Node} : ReadIn s node ↔
    ∃ before ts later s', ts ≠ [] ∧ s.all = before ++ ts :: later ∧ NodeR ⟨ts, later⟩ (.ok node s') := by
  constructor
  · rintro ⟨ts, later, s', h1, ⟨before, h2⟩, h3⟩
    exact ⟨before, ts, later, s', h1, h2.symm, h3⟩
  · rintro ⟨before, ts, later, s', h1, h2, h3⟩
    exact ⟨ts, later, s', h1, ⟨before, h2.symm⟩, h3⟩

/-! ## Empty blocks -/

theorem StepR.nonempty {s s' : Stmts} (h : StepR s (.ok [] s')) : s.cur = [] ∧ s' = .of s.later := by
  cases h with
  | empty => exact ⟨rfl, rfl⟩

theorem BlockR.nonempty {close : List Keyword} {s : Stmts} {r : Read Block} (h : BlockR close s r) {s' : Stmts}
    (hr : r = .ok [] s') : s.cur = [] := by
  cases h with
  | last h _ => cases hr; exact h.nonempty.1
  | @more _ _ nodes _ r h _ _ =>
    cases r with
    | ok a s1 =>
      have : nodes = [] := by
        cases nodes with
        | nil => rfl
        | cons => cases hr
      subst this
      exact h.nonempty.1
    | _ => cases hr
  | panic => cases hr

theorem blockReadIn_nil {s : Stmts} (h : BlockReadIn s []) : [] ∈ s.all := by
  obtain ⟨close, l, s', h1, h2, h3, -⟩ := h
  have h4 := h2.nonempty rfl
  have h5 : s'.Le (.of l) := h2.le
  have h6 : s'.all <:+ (Stmts.of l).all := h5 _ (by
    unfold Stmts.all
    simpa using fun h => absurd h h3) (List.suffix_refl _)
  cases l with
  | nil =>
    rcases List.suffix_cons_iff.1 h6 with h | h
    · exact absurd (List.cons.inj h).1 h3
    · cases List.suffix_nil.1 h
  | cons c l =>
    cases h4
    have h7 : ([] :: l : List (List Token)) <:+ s.all := h1 _ (by
      intro h
      cases h
      rcases List.suffix_cons_iff.1 h6 with h | h
      · exact absurd (List.cons.inj h).1 h3
      · cases List.suffix_nil.1 h) (List.suffix_refl _)
    exact h7.subset List.mem_cons_self

theorem parseStmts_blocks {s : Stmts} {nodes b : Block} (h : parseStmts s = .ok nodes) (hb : BlockIn b nodes) :
    (∃ close s1 s', BlockR close s1 (.ok b s') ∧ s1.Le s) := by
  obtain ⟨s', h⟩ := parseStmts_ok_iff.1 h
  rcases h.blockIn hb with rfl | ⟨close', l, s2, h7, h8, h9⟩
  · exact ⟨_, _, _, h, Stmts.Le.refl _⟩
  · exact ⟨_, _, _, h8, h7⟩

theorem parseStmts_no_empty {s : Stmts} {nodes b : Block} (h : parseStmts s = .ok nodes) (hb : BlockIn b nodes)
    (hs : [] ∉ s.all) : b ≠ [] := by
  rintro rfl
  obtain ⟨s', h⟩ := parseStmts_ok_iff.1 h
  rcases h.blockIn hb with rfl | h
  · have := h.nonempty rfl
    exact hs (by unfold Stmts.all; rw [this]; exact List.mem_cons_self)
  · exact hs (blockReadIn_nil h)

/-! ## Closing keywords as statements -/

theorem closing_fail {c : Token} {k : Keyword} (hk : k ∈ closingKeywords) (hc : c.Is k) (r : List Token) :
    SimpleFail r [c] (.error (.unexpectedToken c)) := by
  have hne : ∀ k' : Keyword, k ≠ k' → ¬ c.Is k' := by
    intro k' hne h
    have h1 : _ = _ := h
    have h2 : _ = _ := hc
    rw [h1] at h2
    cases h2
    exact hne rfl
  have hk1 : ∀ k ∈ closingKeywords, ∀ k' ∈ statementKeywords, k ≠ k' := by decide
  have hk2 : ∀ k ∈ closingKeywords, ∀ k' ∈ exprKeywords, k ≠ k' := by decide
  have hk3 : ∀ k ∈ closingKeywords, k ≠ .SRS := by decide
  have hc' : c.tokenType = .keyword k := hc
  have hid : ¬ c.IsIdent := by rintro ⟨_, h⟩; rw [hc'] at h; cases h
  refine .expression (fun k' h => hne _ (hk1 k hk k' h)) hid (hne _ (hk3 k hk)) (.start ?_)
  rintro (h | ⟨v, h⟩ | ⟨k', h, h'⟩)
  · exact hid h
  · rw [hc'] at h; cases h
  · exact hne _ (hk2 k hk k' h) h'

theorem BlockR.closing_first {close : List Keyword} {c : Token} {k : Keyword} {r : List Token}
    {l : List (List Token)} {body : Block} {s' : Stmts} (h : BlockR close ⟨c :: r, l⟩ (.ok body s'))
    (hk : k ∈ closingKeywords) (hc : c.Is k) :
    ∃ more, body = .astError (.unexpectedToken c) :: (leftoverNodes r ++ more) := by
  have h1 : NodeR ⟨c :: r, l⟩ (.error (.unexpectedToken c) ⟨r, l⟩) :=
    .simpleFail (ts := [c]) (f := .error (.unexpectedToken c)) (closing_fail hk hc r)
  have h2 : StepR ⟨c :: r, l⟩ (.ok (.astError (.unexpectedToken c) :: leftoverNodes r) (.of l)) := .error h1
  generalize hr : Read.ok body s' = x at h
  cases h with
  | last h _ =>
    cases hr
    cases h2.det h
    exact ⟨[], by simp⟩
  | @more _ _ _ _ x h _ _ =>
    cases h2.det h
    cases x with
    | ok a s1 => cases hr; exact ⟨a, rfl⟩
    | _ => cases hr
  | panic h => cases hr

/-! ## The statement after `HAI`, a function or a switch -/

/-- In the block, every node that takes the next statement is the last one or is followed by an error for a
statement of `L`. -/
def NextReported (L : List (List Token)) : Block → Prop
  | [] => True
  | node :: rest => (node.TakesNext → ∀ x more, rest = x :: more → ∃ st ∈ L, x = .astError (.tooManyTokens st)) ∧
      NextReported L rest

theorem NextReported.mono {L L' : List (List Token)} (hL : ∀ st ∈ L, st ∈ L') {b : Block} (h : NextReported L b) :
    NextReported L' b := by
  induction b with
  | nil => trivial
  | cons node rest ih =>
    refine ⟨fun hn x more hr => ?_, ih h.2⟩
    obtain ⟨st, h1, h2⟩ := h.1 hn x more hr
    exact ⟨st, hL st h1, h2⟩

theorem NodeR.takesNext {s s' : Stmts} {node : Node} (h : NodeR s (.ok node s')) (hn : node.TakesNext) :
    ∃ l, s' = .of l ∧ (Stmts.of l).Le s := by
  generalize hr : Read.ok node s' = r at h
  cases h with
  | simple h => cases hr; cases h <;> cases hn
  | hai h => cases hr; exact ⟨_, rfl, Stmts.le_of _ _⟩
  | function h1 h2 =>
    cases hr
    exact ⟨_, rfl, ((Stmts.le_of _ _).trans h2.le).trans (Stmts.le_of _ _)⟩
  | switch h1 h2 h3 h4 =>
    cases hr
    exact ⟨_, rfl, (((Stmts.le_of _ _).trans h3.le).trans h2.le).trans (Stmts.le_of _ _)⟩
  | simpleFail | headFail | switchCases | switchDefault | conditionalYes | conditionalMaybe | conditionalNo =>
    exact absurd hr.symm Fail.read_ne_ok
  | loop | conditional => cases hr; cases hn
  | _ => cases hr

theorem StepR.nextReported {s : Stmts} {r : Read Block} (h : StepR s r) (hs : [] ∉ s.all) {nodes : Block}
    {s' : Stmts} (hr : r = .ok nodes s') (more : Block) (hm : NextReported s.all more) (hm' : s'.cur = [] → more = []) :
    NextReported s.all (nodes ++ more) := by
  cases h with
  | empty => cases hr; exact hm
  | ok h =>
    cases hr
    rename_i node rest l
    have hrest : NextReported s.all (leftoverNodes rest ++ more) := by
      unfold leftoverNodes
      split
      · exact hm
      · exact ⟨fun h => (by cases h), hm⟩
    refine ⟨fun hn x m hx => ?_, hrest⟩
    obtain ⟨l', hl, hle⟩ := h.takesNext hn
    unfold leftoverNodes at hx
    split at hx
    · exfalso
      rename_i he
      cases l' with
      | nil =>
        cases hl
        rw [hm' rfl] at hx
        cases hx
      | cons c l' =>
        cases hl
        cases he
        by_cases hl : l = []
        · subst hl
          rw [hm' rfl] at hx
          cases hx
        · have : ([] :: l : List (List Token)) <:+ s.all := hle _ (by simpa using hl) (List.suffix_refl _)
          exact hs (this.subset List.mem_cons_self)
    · rename_i he
      cases hx
      refine ⟨rest, ?_, rfl⟩
      cases l' with
      | nil => cases hl; exact absurd rfl he
      | cons c l' =>
        cases hl
        have : (rest :: l : List (List Token)) <:+ s.all :=
          hle _ (by simpa using fun h => absurd h he) (List.suffix_refl _)
        exact this.subset List.mem_cons_self
  | error h =>
    cases hr
    refine ⟨fun h => (by cases h), ?_⟩
    unfold leftoverNodes
    split
    · exact hm
    · exact ⟨fun h => (by cases h), hm⟩
  | panic h => cases hr

theorem Stmts.Le.subset {s' s : Stmts} (h : s'.Le s) (hne : s'.cur ≠ []) : ∀ st ∈ s'.all, st ∈ s.all := by
  intro st hst
  exact (h s'.all (by unfold Stmts.all; simpa using fun h => absurd h hne) (List.suffix_refl _)).subset hst

theorem BlockR.nextReported {close : List Keyword} {s : Stmts} {r : Read Block} : BlockR close s r → [] ∉ s.all →
    ∀ nodes s', r = .ok nodes s' → NextReported s.all nodes
  | .last h _ => by
    intro hs nodes s' hr
    have := h.nextReported hs hr [] trivial (fun _ => rfl)
    rwa [List.append_nil] at this
  | .more (s' := s1) (r := r) h1 h2 h3 => by
    have ih := h3.nextReported
    intro hs nodes s' hr
    have hle : s1.Le s := h1.le
    have hne : s1.cur ≠ [] := fun h => h2 (.inl h)
    cases r with
    | ok a s2 =>
      cases hr
      have hsub := hle.subset hne
      exact h1.nextReported hs rfl a ((ih (fun h => hs (hsub _ h)) _ _ rfl).mono hsub) (fun h => absurd h hne)
    | error => cases hr
    | panic => cases hr
  | .panic _ => by intro _ _ _ hr; cases hr

theorem parseStmts_nextReported {s : Stmts} {nodes b : Block} (h : parseStmts s = .ok nodes) (hb : BlockIn b nodes)
    (hs : [] ∉ s.all) : NextReported s.all b := by
  obtain ⟨s', h⟩ := parseStmts_ok_iff.1 h
  rcases h.blockIn hb with rfl | ⟨close, l, s1, h1, h2, h3, -⟩
  · exact h.nextReported hs _ _ rfl
  · have hle : s1.Le (.of l) := h2.le
    have hl : l ≠ [] := by
      rintro rfl
      have : s1.all <:+ [[]] := hle _ (by unfold Stmts.all; simpa using fun h => absurd h h3) (List.suffix_refl _)
      rcases List.suffix_cons_iff.1 this with h | h
      · exact h3 (List.cons.inj h).1
      · cases List.suffix_nil.1 h
    cases l with
    | nil => exact absurd rfl hl
    | cons c l =>
      by_cases hc : c = [] ∧ l = []
      · obtain ⟨rfl, rfl⟩ := hc
        have : s1.all <:+ [[]] := hle _ (by unfold Stmts.all; simpa using fun h => absurd h h3) (List.suffix_refl _)
        rcases List.suffix_cons_iff.1 this with h | h
        · exact absurd (List.cons.inj h).1 h3
        · cases List.suffix_nil.1 h
      · have hsub : ∀ st ∈ c :: l, st ∈ s.all := by
          intro st hst
          exact (h1 (c :: l) (by simpa using hc) (List.suffix_refl _)).subset hst
        exact (h2.nextReported (fun h => hs (hsub _ h)) _ _ rfl).mono hsub

theorem NextReported.iff {L : List (List Token)} {b : Block} : NextReported L b ↔
    ∀ before node x more, b = before ++ node :: x :: more → node.TakesNext →
      ∃ st ∈ L, x = .astError (.tooManyTokens st) := by
  constructor
  · intro h before
    induction before generalizing b with
    | nil =>
      rintro node x more rfl hn
      exact h.1 hn x more rfl
    | cons y before ih =>
      rintro node x more rfl hn
      exact ih h.2 node x more rfl hn
  · intro h
    induction b with
    | nil => trivial
    | cons node rest ih =>
      refine ⟨fun hn x more hr => h [] node x more (by rw [hr]; rfl) hn, ih fun before n x more hb hn => ?_⟩
      exact h (node :: before) n x more (by rw [hb]; rfl) hn

/-! ## Unclosed blocks -/

/-- A block runs to an empty statement or to the end if no statement starts with a keyword that closes it. -/
theorem BlockR.unclosed {close : List Keyword} {l : List (List Token)} {body : Block} {s' : Stmts}
    (h : BlockR close (.of l) (.ok body s')) (hl : ∀ st ∈ l, ∀ k ∈ close, NotFirst k st) : s'.cur = [] := by
  rcases h.stop _ _ rfl with h1 | ⟨t, r, h1, k, hk, ht⟩
  · exact h1
  · exfalso
    have hle : s'.Le (.of l) := h.le
    have hsub := hle.subset (by rw [h1]; simp)
    have hm : t :: r ∈ (Stmts.of l).all := hsub _ (by unfold Stmts.all; rw [h1]; exact List.mem_cons_self)
    cases l with
    | nil => simp [Stmts.of, Stmts.all] at hm
    | cons c l => exact hl _ hm k hk t r rfl ht

/-! ## Errors about unclosed blocks -/

/-- The errors about blocks that are not closed. -/
def ASTError.OfBlock : ASTError → Prop
  | .imInYr (.missingImOuttaYr _) | .missingBlockClosingToken _ => True
  | _ => False

/-- Not an error about a block that is not closed. -/
def Fail.NotOfBlock : Fail → Prop
  | .error e => ¬ e.OfBlock
  | .panic _ => True

theorem Fail.read_error {α : Type} {f : Fail} {s s' : Stmts} {e : ASTError} (h : (f.read s : Read α) = .error e s') :
    f = .error e ∧ s = s' := by
  cases f with
  | error e' => cases h; exact ⟨rfl, rfl⟩
  | panic => cases h

theorem IdentFail.notOfBlock {rest ts : List Token} {f : Fail} (h : IdentFail rest ts f) : f.NotOfBlock := by
  cases h <;> exact id

theorem AccessFail.notOfBlock {rest ts : List Token} {f : Fail} (h : AccessFail rest ts f) : f.NotOfBlock := by
  cases h with
  | name h => exact h.notOfBlock
  | slotEnd => exact id
  | slot _ _ h => exact h.notOfBlock

theorem ExprFail.notOfBlock {rest ts : List Token} {f : Fail} (h : ExprFail rest ts f) : f.NotOfBlock := by
  induction h with
  | access _ h => exact h.notOfBlock
  | maek => trivial
  | unary _ _ ih => exact ih
  | binaryLeft _ _ ih => exact ih
  | binaryRight _ _ _ _ _ _ ih => exact ih
  | nary _ _ _ _ ih => exact ih
  | _ => exact id

theorem ArgsFail.notOfBlock {rest ts : List Token} {f : Fail} (h : ArgsFail rest ts f) : f.NotOfBlock := by
  induction h with
  | yrEnd => exact id
  | argument _ h => exact h.notOfBlock
  | later _ _ _ _ _ ih => exact ih

theorem SimpleFail.notOfBlock {rest ts : List Token} {f : Fail} (h : SimpleFail rest ts f) : f.NotOfBlock := by
  cases h with
  | declarationSrs _ _ h => exact h.notOfBlock
  | declarationValue _ _ _ _ h => exact h.notOfBlock
  | access _ h => exact h.notOfBlock
  | accessThen => trivial
  | assignmentValue _ _ h => exact h.notOfBlock
  | setSlotName _ _ h => exact h.notOfBlock
  | setSlotValue _ _ _ _ h => exact h.notOfBlock
  | visible _ _ _ h => exact h.notOfBlock
  | gimmeh _ h => exact h.notOfBlock
  | foundYr _ h => exact h.notOfBlock
  | callName _ h => exact h.notOfBlock
  | callArguments _ _ h => exact h.notOfBlock
  | expression _ _ _ h => exact h.notOfBlock
  | _ => exact id

theorem ParamsFail.notOfBlock {rest ts : List Token} {f : Fail} (h : ParamsFail rest ts f) : f.NotOfBlock := by
  induction h with
  | nameEnd => exact id
  | name _ h => exact h.notOfBlock
  | later _ _ _ _ ih => exact ih

theorem HeadFail.notOfBlock {rest ts : List Token} {f : Fail} (h : HeadFail rest ts f) : f.NotOfBlock := by
  cases h with
  | iteration _ _ h =>
    cases h with
    | name _ _ h => exact h.notOfBlock
    | _ => exact id
  | condition _ _ _ h =>
    cases h with
    | expr _ h => exact h.notOfBlock
    | exprEnd => exact id
  | name _ h => exact h.notOfBlock
  | params _ _ h => exact h.notOfBlock
  | _ => exact id

theorem OmgsR.notOfBlock {s : Stmts} {r : Read (List WtfOmg)} : OmgsR s r → ∀ e s', r = .error e s' → ¬ e.OfBlock
  | .nil _ => by intro _ _ hr; cases hr
  | .valueEnd _ => by intro _ _ hr; cases hr; exact id
  | .value _ h => by
    intro e s' hr
    obtain ⟨rfl, -⟩ := Fail.read_error hr
    exact h.notOfBlock
  | .left _ _ _ _ => by intro _ _ hr; cases hr; exact id
  | .body _ _ _ => by intro _ _ hr; cases hr
  | .cons (r := r) _ _ _ h => by
    have ih := h.notOfBlock
    intro e s' hr
    cases r with
    | error e' s1 => cases hr; exact ih _ _ rfl
    | _ => cases hr

theorem MebbesR.notOfBlock {s : Stmts} {r : Read (List Mebbe)} : MebbesR s r → ∀ e s', r = .error e s' → ¬ e.OfBlock
  | .nil _ => by intro _ _ hr; cases hr
  | .valueEnd _ => by intro _ _ hr; cases hr; exact id
  | .value _ h => by
    intro e s' hr
    obtain ⟨rfl, -⟩ := Fail.read_error hr
    exact h.notOfBlock
  | .left _ _ _ _ => by intro _ _ hr; cases hr; exact id
  | .body _ _ _ => by intro _ _ hr; cases hr
  | .cons (r := r) _ _ _ h => by
    have ih := h.notOfBlock
    intro e s' hr
    cases r with
    | error e' s1 => cases hr; exact ih _ _ rfl
    | _ => cases hr

theorem OmgWtfR.notOfBlock {s s' : Stmts} {e : ASTError} (h : OmgWtfR s (.error e s')) : ¬ e.OfBlock := by
  generalize hr : Read.error e s' = r at h
  cases h with
  | none => cases hr
  | left => cases hr; exact id
  | @some _ _ r _ h =>
    cases r with
    | error e s1 => exact absurd rfl (h.noError e s1)
    | _ => cases hr

theorem YaRlyR.notOfBlock {s s' : Stmts} {e : ASTError} (h : YaRlyR s (.error e s')) : ¬ e.OfBlock := by
  generalize hr : Read.error e s' = r at h
  cases h with
  | none => cases hr
  | left => cases hr; exact id
  | @some _ _ r _ h =>
    cases r with
    | error e s1 => exact absurd rfl (h.noError e s1)
    | _ => cases hr

theorem NoWaiR.notOfBlock {s s' : Stmts} {e : ASTError} (h : NoWaiR s (.error e s')) : ¬ e.OfBlock := by
  generalize hr : Read.error e s' = r at h
  cases h with
  | none => cases hr
  | left => cases hr; exact id
  | @some _ _ r _ h =>
    cases r with
    | error e s1 => exact absurd rfl (h.noError e s1)
    | _ => cases hr

/-- The errors about blocks that are not closed, and where they come from. -/
theorem NodeR.ofBlock {ts : List Token} {later : List (List Token)} {e : ASTError} {s' : Stmts}
    (h : NodeR ⟨ts, later⟩ (.error e s')) (he : e.OfBlock) :
    ∃ t, (e = .imInYr (.missingImOuttaYr t) ∧ LoopOpen ts later t) ∨ (e = .missingBlockClosingToken t ∧
      (FunctionOpen ts later t ∨ ConditionalOpen ts later t ∨ SwitchOpen ts later t)) := by
  generalize hs : Stmts.mk ts later = s at h
  generalize hr : Read.error _ _ = r at h
  cases h with
  | loopEnd h1 h2 =>
    cases hs; cases hr
    exact ⟨_, .inl ⟨rfl, _, _, _, _, _, loopHead_iff.1 h1, h2⟩⟩
  | functionEnd h1 h2 =>
    cases hs; cases hr
    exact ⟨_, .inr ⟨rfl, .inl ⟨_, _, _, _, functionHead_iff.1 h1, h2⟩⟩⟩
  | switchEnd h1 h2 h3 =>
    cases hs; cases hr
    obtain ⟨q, rfl, h5, h6⟩ := switchHead_iff.1 h1
    exact ⟨_, .inr ⟨rfl, .inr (.inr ⟨_, _, _, _, _, rfl, h5, h6, h2, h3⟩)⟩⟩
  | conditionalEnd h1 h2 h3 h4 =>
    cases hs; cases hr
    obtain ⟨q, rfl, h5, h6⟩ := conditionalHead_iff.1 h1
    exact ⟨_, .inr ⟨rfl, .inr (.inl ⟨_, _, _, _, _, _, _, rfl, h5, h6, h2, h3, h4⟩)⟩⟩
  | simpleFail h => obtain ⟨rfl, -⟩ := Fail.read_error hr.symm; exact absurd he h.notOfBlock
  | headFail h => obtain ⟨rfl, -⟩ := Fail.read_error hr.symm; exact absurd he h.notOfBlock
  | switchCases _ h => obtain ⟨rfl, -⟩ := Fail.read_error hr.symm; exact absurd he (h.notOfBlock _ _ rfl)
  | switchDefault _ _ h => obtain ⟨rfl, -⟩ := Fail.read_error hr.symm; exact absurd he h.notOfBlock
  | conditionalYes _ h => obtain ⟨rfl, -⟩ := Fail.read_error hr.symm; exact absurd he h.notOfBlock
  | conditionalMaybe _ _ h => obtain ⟨rfl, -⟩ := Fail.read_error hr.symm; exact absurd he (h.notOfBlock _ _ rfl)
  | conditionalNo _ _ _ h => obtain ⟨rfl, -⟩ := Fail.read_error hr.symm; exact absurd he h.notOfBlock
  | _ => cases hr <;> exact absurd he id

theorem NodeR.loopOpen_iff {ts : List Token} {later : List (List Token)} {t : Token} :
    (∃ s', NodeR ⟨ts, later⟩ (.error (.imInYr (.missingImOuttaYr t)) s')) ↔ LoopOpen ts later t := by
  constructor
  · rintro ⟨s', h⟩
    obtain ⟨t', ⟨h1, h2⟩ | ⟨h1, -⟩⟩ := h.ofBlock trivial
    · cases h1; exact h2
    · cases h1
  · rintro ⟨label, op, cond, body, l, h1, h2⟩
    exact ⟨_, .loopEnd (loopHead_iff.2 h1) h2⟩

theorem NodeR.open_iff {ts : List Token} {later : List (List Token)} {t : Token} :
    (∃ s', NodeR ⟨ts, later⟩ (.error (.missingBlockClosingToken t) s')) ↔
      FunctionOpen ts later t ∨ ConditionalOpen ts later t ∨ SwitchOpen ts later t := by
  constructor
  · rintro ⟨s', h⟩
    obtain ⟨t', ⟨h1, -⟩ | ⟨h1, h2⟩⟩ := h.ofBlock trivial
    · cases h1
    · cases h1; exact h2
  · rintro (⟨name, params, body, l, h1, h2⟩ | ⟨q, yaRly, s1, mebbes, s2, noWai, l, h1, h2, h3, h4, h5, h6⟩ |
      ⟨q, omgs, s1, omgWtf, l, h1, h2, h3, h4, h5⟩)
    · exact ⟨_, .functionEnd (functionHead_iff.2 h1) h2⟩
    · exact ⟨_, .conditionalEnd (conditionalHead_iff.2 ⟨q, h1, h2, h3⟩) h4 h5 h6⟩
    · exact ⟨_, .switchEnd (switchHead_iff.2 ⟨q, h1, h2, h3⟩) h4 h5⟩

theorem NodeR.noErrorNode {s s' : Stmts} {e : ASTError} (h : NodeR s (.ok (.astError e) s')) : False := by
  generalize hr : Read.ok _ _ = r at h
  cases h with
  | simple h => cases hr; cases h
  | simpleFail | headFail | switchCases | switchDefault | conditionalYes | conditionalMaybe | conditionalNo =>
    exact Fail.read_ne_ok hr.symm
  | _ => cases hr

theorem hasError_iff {start s : Stmts} {before tree : Block} {e : ASTError} (h : Reaches start before s)
    (ht : parseStmts start = .ok tree) (hs : s.cur ≠ []) :
    HasNode tree before (.astError e) ↔ ∃ s', NodeR s (.error e s') := by
  constructor
  · rintro ⟨more, hm⟩
    rcases parseStmts_first (h.parse_at ht hm) hs with ⟨rest, l, h⟩ | ⟨e', rest, l, he, h⟩
    · exact h.noErrorNode.elim
    · cases he; exact ⟨_, h⟩
  · rintro ⟨s', h1⟩
    obtain ⟨more, hm⟩ := reaches_error h h1 ht
    exact ⟨_, hm⟩

theorem TakesNextAt.nodeR {ts : List Token} {later l : List (List Token)} {node : Node}
    (h : TakesNextAt ts later node l) : NodeR ⟨ts, later⟩ (.ok node (.of l)) := by
  cases h with
  | hai h1 h2 => subst h1; exact .hai h2
  | function h => exact NodeR.function_iff.2 ⟨_, h, rfl⟩
  | switch h => exact NodeR.switch_iff.2 ⟨_, h, rfl⟩

/-! ## Constructs that are not closed give errors -/

theorem Identifier.WF.starts {i : Identifier} (h : i.WF) {t : Token} {r r' : List Token}
    (ht : i.toks ++ r = t :: r') : t.IsIdent ∨ t.Is .SRS := by
  obtain ⟨name, srs⟩ := i
  cases srs with
  | none => cases ht; exact .inl h.1
  | some u => cases ht; exact .inr (h.2 _ rfl)

theorem Expr.WF.starts {e : Expr} (h : e.WF) {t : Token} {r : List Token} (ht : e.toks = t :: r) :
    t.StartsExpr := by
  cases e with
  | value v =>
    cases v with
    | variableAccess v =>
      have h : v.WF := h
      simp only [Expr.toks, ExprValue.toks, VariableAccess.toks] at ht
      rcases h.1.starts ht with h | h
      · exact .inl h
      · exact .inr (.inr ⟨_, by decide, h⟩)
    | literal u =>
      cases ht
      rcases h with h | h
      · exact .inr (.inl h)
      · exact .inr (.inr ⟨_, by decide, h⟩)
  | unary op e =>
    simp only [Expr.toks] at ht
    cases ht
    exact .inr (.inr ⟨_, by cases op <;> simp [exprKeywords, UnaryOpt.keyword, BinaryOpt.keyword, NaryOpt.keyword], h.1⟩)
  | binary op l an r =>
    simp only [Expr.toks] at ht
    cases ht
    exact .inr (.inr ⟨_, by cases op <;> simp [exprKeywords, UnaryOpt.keyword, BinaryOpt.keyword, NaryOpt.keyword], h.1⟩)
  | nary op es mkay =>
    simp only [Expr.toks] at ht
    cases ht
    exact .inr (.inr ⟨_, by cases op <;> simp [exprKeywords, UnaryOpt.keyword, BinaryOpt.keyword, NaryOpt.keyword], h.1⟩)

theorem Token.StartsExpr.notBlock {t : Token} (h : t.StartsExpr) {k : Keyword} (hk : k ∈ blockKeywords) :
    ¬ t.Is k := by
  intro ht
  have ht : t.tokenType = _ := ht
  rcases h with ⟨n, h⟩ | ⟨v, h⟩ | ⟨k', hk', h⟩
  · rw [ht] at h; cases h
  · rw [ht] at h; cases h
  · have h : t.tokenType = _ := h
    rw [ht] at h
    cases h
    exact absurd hk' ((by decide : ∀ k ∈ blockKeywords, k ∉ exprKeywords) k hk)

theorem Token.Is.notBlock {t : Token} {k' : Keyword} (h : t.Is k') {k : Keyword} (hk : k ∈ blockKeywords)
    (hne : k' ∉ blockKeywords) : ¬ t.Is k := by
  intro ht
  have ht : t.tokenType = _ := ht
  have h : t.tokenType = _ := h
  rw [ht] at h
  cases h
  exact hne hk

theorem SimpleG.notBlock {rest ts : List Token} {node : Node} (h : SimpleG rest ts node) {t : Token} {r : List Token}
    (ht : ts ++ rest = t :: r) {k : Keyword} (hk : k ∈ blockKeywords) : ¬ t.Is k := by
  have hid : t.IsIdent ∨ t.Is .SRS → ¬ t.Is k := by
    rintro (h | h)
    · exact Token.StartsExpr.notBlock (.inl h) hk
    · exact h.notBlock hk (by decide)
  have hv : ∀ (v : VariableAccess) r', v.WF → v.toks ++ r' = t :: r → ¬ t.Is k := by
    intro v r' h ht
    rw [VariableAccess.toks, List.append_assoc] at ht
    exact hid (h.1.starts ht)
  have he : ∀ (e : Expr), e.WF → e.toks ++ rest = t :: r → ¬ t.Is k := by
    intro e h ht
    obtain ⟨u, us, h2⟩ := e.toks_ne
    rw [h2] at ht
    cases ht
    exact (h.starts h2).notBlock hk
  cases h with
  | assignment h => rw [List.append_assoc] at ht; exact hv _ _ h ht
  | setSlot h => rw [List.append_assoc] at ht; exact hv _ _ h ht
  | access h _ => exact hv _ _ h ht
  | expression h => exact he _ h ht
  | declaration h => cases ht; exact h.notBlock hk (by decide)
  | declarationType h => cases ht; exact h.notBlock hk (by decide)
  | declarationExpr h => cases ht; exact h.notBlock hk (by decide)
  | visible h => cases ht; exact h.notBlock hk (by decide)
  | gimmeh h => cases ht; exact h.notBlock hk (by decide)
  | foundYr h => cases ht; exact h.notBlock hk (by decide)
  | call h => cases ht; exact h.notBlock hk (by decide)
  | gtfo h => cases ht; exact h.notBlock hk (by decide)
  | kThxBye h => cases ht; exact h.notBlock hk (by decide)

theorem mem_of_le {c : Token} {r : List Token} {l later : List (List Token)}
    (h : Stmts.Le ⟨c :: r, l⟩ (.of later)) : c :: r ∈ later := by
  have h1 := h.subset (by simp) (c :: r) (by simp [Stmts.all])
  cases later with
  | nil => simp [Stmts.of, Stmts.all] at h1
  | cons c later => exact h1

/-- A construct that is read without an error of its own has its closing keyword at the start of a later
statement. -/
theorem NodeR.closed {t : Token} {r : List Token} {later : List (List Token)} {node : Node} {s' : Stmts}
    (h : NodeR ⟨t :: r, later⟩ (.ok node s')) {o c : Keyword} (hk : (o, c) ∈ openClose) (ht : t.Is o) :
    ∃ st ∈ later, ∃ u r', st = u :: r' ∧ u.Is c := by
  have hne : ∀ {k}, t.Is k → k = o := by
    intro k h
    have h : t.tokenType = _ := h
    have ht : t.tokenType = _ := ht
    rw [ht] at h
    cases h
    rfl
  generalize hs : Stmts.mk (t :: r) later = s at h
  generalize hr : Read.ok _ _ = r at h
  cases h with
  | simple h =>
    exfalso
    injection hs with hs _
    exact h.notBlock hs.symm ((by decide : ∀ p ∈ openClose, p.1 ∈ blockKeywords) _ hk) ht
  | hai h =>
    exfalso
    cases hs
    cases hne h
    simp [openClose] at hk
  | loop h1 h2 h3 =>
    injection hs with hs hl
    subst hs hl
    obtain ⟨_, _, h4, h5, -⟩ := loopHead_iff.1 h1
    cases h4
    cases hne h5
    refine ⟨_, mem_of_le h2.le, _, _, rfl, ?_⟩
    have : c = .IM_OUTTA_YR := by simpa [openClose] using hk
    rw [this]
    exact h2.loopEnd
  | function h1 h2 =>
    injection hs with hs hl
    subst hs hl
    obtain ⟨_, h4, h5, -⟩ := functionHead_iff.1 h1
    cases h4
    cases hne h5
    refine ⟨_, mem_of_le h2.le, _, _, rfl, ?_⟩
    have : c = .IF_U_SAY_SO := by simpa [openClose] using hk
    rw [this]
    exact h2.functionEnd
  | switch h1 h2 h3 h4 =>
    injection hs with hs hl
    subst hs hl
    obtain ⟨_, h5, h6, -⟩ := switchHead_iff.1 h1
    cases h5
    cases hne h6
    have : c = .OIC := by simpa [openClose] using hk
    rw [this]
    exact ⟨_, mem_of_le (Stmts.Le.trans h3.le h2.le), _, _, rfl, h4⟩
  | conditional h1 h2 h3 h4 h5 =>
    injection hs with hs hl
    subst hs hl
    obtain ⟨_, h6, h7, -⟩ := conditionalHead_iff.1 h1
    cases h6
    cases hne h7
    have : c = .OIC := by simpa [openClose] using hk
    rw [this]
    exact ⟨_, mem_of_le (Stmts.Le.trans (Stmts.Le.trans h4.le h3.le) h2.le), _, _, rfl, h5⟩
  | simpleFail | headFail | switchCases | switchDefault | conditionalYes | conditionalMaybe | conditionalNo =>
    exact absurd hr.symm Fail.read_ne_ok
  | _ => cases hr

theorem reaches_noPanic {start s : Stmts} {before tree : Block} {p : PanicSite} (h : Reaches start before s)
    (ht : parseStmts start = .ok tree) : ¬ NodeR s (.panic p) := by
  intro hp
  rw [h.parse, parseStmts_step_panic (.panic hp)] at ht
  cases ht

/-- At each statement the tree goes on with a node that has been read, or with an error. -/
theorem reaches_total {start s : Stmts} {before tree : Block} (h : Reaches start before s)
    (ht : parseStmts start = .ok tree) (hs : s.cur ≠ []) :
    (∃ node s', NodeR s (.ok node s') ∧ HasNode tree before node) ∨
      ∃ e s', NodeR s (.error e s') ∧ HasNode tree before (.astError e) := by
  obtain ⟨r, hr⟩ := StepR.total s
  cases hr with
  | empty => exact absurd rfl hs
  | ok h1 => exact .inl ⟨_, _, h1, (reaches_node h h1 ht).elim fun _ h => ⟨_, h⟩⟩
  | error h1 => exact .inr ⟨_, _, h1, (hasError_iff h ht hs).2 ⟨_, h1⟩⟩
  | panic h1 => exact absurd h1 (reaches_noPanic h ht)

end Lol
