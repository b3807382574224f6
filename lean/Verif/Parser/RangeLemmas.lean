import Verif.Parser.CutLemmas
import Verif.Parser.ErrorLemmas
import Verif.Parser.TreeLemmas
import Verif.Parser.TokensLemmas

/-! # Where the expressions of a tree stand in the source: lemmas -/

namespace Lol

/-! ## Parts of statements -/

theorem split_front : (a : List Token) → (mid : List Token) → (line : Int) → (x : List Token) → x ≠ [] →
    splitFrom mid line = ⟨a ++ x, []⟩ →
    ∃ pre m, mid = pre ++ m ∧ m.head? = x.head? ∧ m ≠ [] ∧ split m = ⟨x, []⟩
  | [], mid, line, x, hx, h => split_cur_start mid line x h hx
  | t :: a, mid, line, x, hx, h => by
    obtain ⟨dots, m, h1, h2, h3, h4⟩ := split_cur_start mid line _ h (by simp)
    obtain ⟨u, r, rfl⟩ := List.exists_cons_of_ne_nil h3
    cases h2
    rw [split, firstLine, splitFrom] at h4
    by_cases hc : t.tokenType = .comma
    · rw [if_pos hc] at h4; cases h4
    · by_cases he : t.tokenType = .ellipsis
      · have hs := split_tokens (t :: r)
        rw [if_neg hc, if_pos rfl, if_pos he] at h4
        have hu : t ∈ content (t :: r) := by
          rw [← hs, split, firstLine, splitFrom, if_neg hc, if_pos rfl, if_pos he, h4]
          simp [Stmts.tokens]
        rw [content, List.mem_filter] at hu
        simp [Token.isSeparator, he] at hu
      · rw [if_neg hc, if_pos rfl, if_neg he] at h4
        have h5 : splitFrom r t.range.start.line = ⟨a ++ x, []⟩ := by
          cases hr : splitFrom r t.range.start.line with
          | mk c l =>
            rw [hr] at h4
            simp only [Stmts.push, List.cons_append, Stmts.mk.injEq, List.cons.injEq, true_and] at h4
            rw [h4.1, h4.2]
        obtain ⟨pre, m, g1, g2, g3, g4⟩ := split_front a r _ x hx h5
        exact ⟨dots ++ t :: pre, m, by rw [h1, g1]; simp, g2, g3, g4⟩

theorem split_back : (mid : List Token) → (line : Int) → (x b : List Token) → x ≠ [] →
    splitFrom mid line = ⟨x ++ b, []⟩ →
    ∃ m c, mid = m ++ c ∧ m.head? = mid.head? ∧ m.getLast? = x.getLast? ∧ splitFrom m line = ⟨x, []⟩
  | [], line, x, b, hx, h => by
    simp only [splitFrom, Stmts.mk.injEq, and_true] at h
    exact absurd (List.append_eq_nil_iff.1 h.symm).1 hx
  | t :: r, line, x, b, hx, h => by
    have hne : x ++ b ≠ [] := by simp [hx]
    by_cases hc : t.tokenType = .comma
    · simp [splitFrom, hc] at h; exact absurd h.1.1 hx
    · by_cases hl : t.range.start.line = line
      · by_cases he : t.tokenType = .ellipsis
        · rw [splitFrom, if_neg hc, if_pos hl, if_pos he] at h
          obtain ⟨m, c, g1, g2, g3, g4⟩ := split_back r _ x b hx h
          have hm : m ≠ [] := by
            rintro rfl
            simp only [splitFrom, Stmts.mk.injEq, and_true] at g4
            exact hx g4.symm
          obtain ⟨u, m', rfl⟩ := List.exists_cons_of_ne_nil hm
          refine ⟨t :: u :: m', c, by rw [g1]; rfl, rfl, by rw [List.getLast?_cons_cons]; exact g3, ?_⟩
          rw [splitFrom, if_neg hc, if_pos hl, if_pos he]
          rw [g1] at g4
          exact g4
        · rw [splitFrom, if_neg hc, if_pos hl, if_neg he] at h
          obtain ⟨y, x', rfl⟩ := List.exists_cons_of_ne_nil hx
          cases hr : splitFrom r line with
          | mk c l =>
            rw [hr] at h
            simp only [Stmts.push, List.cons_append, Stmts.mk.injEq, List.cons.injEq] at h
            obtain ⟨⟨rfl, rfl⟩, rfl⟩ := h
            by_cases hx' : x' = []
            · subst hx'
              refine ⟨[t], r, rfl, rfl, rfl, ?_⟩
              simp [splitFrom, hc, hl, he, Stmts.push]
            · obtain ⟨m, c, g1, g2, g3, g4⟩ := split_back r _ x' b hx' hr
              refine ⟨t :: m, c, by rw [g1]; rfl, rfl, ?_, ?_⟩
              · rw [List.getLast?_cons, List.getLast?_cons, g3]
              · rw [splitFrom, if_neg hc, if_pos hl, if_neg he, g4]
                rfl
      · simp [splitFrom, hc, hl] at h; exact absurd h.1.1 hx

/-- A part of a statement is a part of the token list. -/
theorem part_segment {ts x : List Token} {i : Nat} (h : x <:+: stmt ts i) (hx : x ≠ []) :
    ∃ a mid c, ts = a ++ (mid ++ c) ∧ mid.head? = x.head? ∧ mid.getLast? = x.getLast? ∧ split mid = ⟨x, []⟩ := by
  obtain ⟨a, b, h⟩ := h
  have hne : stmt ts i ≠ [] := by rw [← h]; simp [hx]
  obtain ⟨a1, mid, c1, h1, -, -, h4⟩ := stmt_segment hne
  rw [← h, List.append_assoc] at h4
  obtain ⟨a2, m, g1, g2, g3, g4⟩ := split_front a mid _ (x ++ b) (by simp [hx]) h4
  obtain ⟨m', c2, k1, k2, k3, k4⟩ := split_back m _ x b hx g4
  have hm : m' ≠ [] := by
    rintro rfl
    simp only [splitFrom, Stmts.mk.injEq, and_true] at k4
    exact hx k4.symm
  have hh : m'.head? = x.head? := by
    rw [k2, g2]
    cases x with
    | nil => exact absurd rfl hx
    | cons y x => rfl
  refine ⟨a1 ++ a2, m', c2 ++ c1, by rw [h1, g1, k1]; simp, hh, k3, ?_⟩
  obtain ⟨u, m'', rfl⟩ := List.exists_cons_of_ne_nil hm
  rw [k1] at k4
  exact k4

/-! ## Parts of expressions -/

mutual

theorem Expr.subs_infix : (e : Expr) → ∀ x ∈ e.subs, x.toks <:+: e.toks
  | .value v, x, hx => by
    simp only [Expr.subs, List.mem_singleton] at hx
    rw [hx]
    exact List.infix_refl _
  | .unary op e, x, hx => by
    have ih := e.subs_infix
    simp only [Expr.subs, List.mem_cons] at hx
    rcases hx with rfl | hx
    · exact List.infix_refl _
    · exact (ih x hx).trans (by simpa only [Expr.toks] using (List.suffix_cons _ _).isInfix)
  | .binary op l an r, x, hx => by
    have ihl := l.subs_infix
    have ihr := r.subs_infix
    simp only [Expr.subs, List.mem_cons, List.mem_append] at hx
    rcases hx with rfl | hx | hx
    · exact List.infix_refl _
    · exact (ihl x hx).trans ⟨[op.token], an.toList ++ r.toks, by simp [Expr.toks]⟩
    · exact (ihr x hx).trans ⟨op.token :: (l.toks ++ an.toList), [], by simp [Expr.toks]⟩
  | .nary op es mkay, x, hx => by
    have ih := subsOperands_infix es
    simp only [Expr.subs, List.mem_cons] at hx
    rcases hx with rfl | hx
    · exact List.infix_refl _
    · exact (ih x hx).trans ⟨[op.token], mkay.toList, by simp [Expr.toks]⟩

theorem subsOperands_infix : (es : List Operand) → ∀ x ∈ subsOperands es, x.toks <:+: toksOperands es
  | [], x, hx => by cases hx
  | .mk e an :: es, x, hx => by
    have ih := e.subs_infix
    have ihs := subsOperands_infix es
    simp only [subsOperands, List.mem_append] at hx
    rcases hx with hx | hx
    · exact (ih x hx).trans ⟨[], an.toList ++ toksOperands es, by simp [toksOperands]⟩
    · exact (ihs x hx).trans ⟨e.toks ++ an.toList, [], by simp [toksOperands]⟩

end

/-! ## Parts of nodes -/

theorem ArgsG.infix {rest ts : List Token} {es : List Expr} (h : ArgsG rest ts es) :
    ∀ e ∈ es, e.toks <:+: ts ∧ e.WF := by
  induction h with
  | nil => intro e he; cases he
  | one _ h => intro e he; cases List.mem_singleton.1 he; exact ⟨(List.suffix_cons _ _).isInfix, h⟩
  | @cons yr e an ts es _ h _ _ _ ih =>
    intro x hx
    rcases List.mem_cons.1 hx with rfl | hx
    · exact ⟨⟨[yr], an :: ts, by simp⟩, h⟩
    · exact ⟨(ih x hx).1.trans ⟨yr :: (e.toks ++ [an]), [], by simp⟩, (ih x hx).2⟩

theorem infix_flatMap {es : List Expr} {x : Expr} (h : x ∈ es) : x.toks <:+: es.flatMap Expr.toks := by
  obtain ⟨a, b, rfl⟩ := List.append_of_mem h
  exact ⟨a.flatMap Expr.toks, b.flatMap Expr.toks, by simp⟩

theorem SimpleG.exprs_infix {rest ts : List Token} {node : Node} (h : SimpleG rest ts node) :
    ∀ e ∈ node.exprs, e.toks <:+: ts ∧ e.WF := by
  intro e he
  cases h with
  | declaration => cases he
  | declarationType => cases he
  | @declarationExpr t i itz e' _ _ _ h =>
    cases List.mem_singleton.1 he
    exact ⟨⟨t :: (i.toks ++ [itz]), [], by simp⟩, h⟩
  | @assignment v r e' _ _ h =>
    cases List.mem_singleton.1 he
    exact ⟨⟨v.toks ++ [r], [], by simp⟩, h⟩
  | @setSlot v h i itz e' _ _ _ _ h =>
    cases List.mem_singleton.1 he
    exact ⟨⟨v.toks ++ _ :: (i.toks ++ [itz]), [], by simp; rfl⟩, h⟩
  | access h => cases List.mem_singleton.1 he; exact ⟨List.infix_refl _, h⟩
  | expression h => cases List.mem_singleton.1 he; exact ⟨List.infix_refl _, h⟩
  | @visible t es ex _ h => exact ⟨(infix_flatMap (es := es) he).trans ⟨[t], ex.toList, by simp⟩, h.wf e he⟩
  | gimmeh => cases he
  | foundYr _ h => cases List.mem_singleton.1 he; exact ⟨(List.suffix_cons _ _).isInfix, h⟩
  | @call t v ts es mkay _ _ h3 _ =>
    exact ⟨(h3.infix e he).1.trans ⟨t :: v.toks, [mkay], by simp⟩, (h3.infix e he).2⟩
  | gtfo => cases he
  | kThxBye => cases he

theorem SimpleG.accesses_infix {rest ts : List Token} {node : Node} (h : SimpleG rest ts node) :
    ∀ v ∈ node.accesses, v.toks <:+: ts ∧ v.WF := by
  intro v hv
  cases h with
  | @assignment v r e' h1 => cases List.mem_singleton.1 hv; exact ⟨(List.prefix_append _ _).isInfix, h1⟩
  | @setSlot v h i itz e' h1 => cases List.mem_singleton.1 hv; exact ⟨(List.prefix_append _ _).isInfix, h1⟩
  | gimmeh _ h1 => cases List.mem_singleton.1 hv; exact ⟨(List.suffix_cons _ _).isInfix, h1⟩
  | @call t v ts es mkay _ h1 =>
    cases List.mem_singleton.1 hv
    exact ⟨⟨[t], ts ++ [mkay], by simp⟩, h1⟩
  | _ => cases hv

/-- `ts` is a part of a statement of `s`. -/
def PartIn (s : Stmts) (ts : List Token) : Prop := ∃ st ∈ s.all, ts <:+: st

theorem PartIn.mono {s' s : Stmts} {ts : List Token} (h : PartIn s' ts) (hs : s'.In s) (hne : ts ≠ []) :
    PartIn s ts := by
  obtain ⟨st, h1, h2⟩ := h
  exact ⟨st, hs st h1 (by rintro rfl; exact hne (List.infix_nil.1 h2)), h2⟩

theorem Expr.toks_ne_nil (e : Expr) : e.toks ≠ [] := by
  obtain ⟨f, _, h, _⟩ := e.range_spans
  intro h'
  rw [h'] at h
  cases h

theorem VariableAccess.toks_ne_nil' (v : VariableAccess) : v.toks ≠ [] := by
  obtain ⟨f, _, h, _⟩ := v.range_spans
  intro h'
  rw [h'] at h
  cases h

theorem OmgsR.exprs {s : Stmts} {r : Read (List WtfOmg)} : OmgsR s r → ∀ omgs s', r = .ok omgs s' →
    ∀ t e b, WtfOmg.mk t e b ∈ omgs → PartIn s e.toks ∧ e.WF
  | .nil _ => by rintro _ _ ⟨⟩ _ _ _ h; cases h
  | .valueEnd _ => by rintro _ _ ⟨⟩
  | .value (f := f) _ _ => by cases f <;> rintro _ _ ⟨⟩
  | .left _ _ _ _ => by rintro _ _ ⟨⟩
  | .body _ _ _ => by rintro _ _ ⟨⟩
  | .cons (r := r) (s := s1) _ he h1 h2 => by
    have ih := h2.exprs
    intro omgs s' hr t e b hm
    cases r with
    | ok a s2 =>
      cases hr
      rcases List.mem_cons.1 hm with hm | hm
      · cases hm
        exact ⟨⟨_, List.mem_cons_self, (List.suffix_cons _ _).isInfix⟩, he⟩
      · obtain ⟨g1, g2⟩ := ih _ _ rfl t e b hm
        exact ⟨g1.mono ((Stmts.Le.in (show Stmts.Le _ _ from h1.le)).trans (Stmts.in_of _ _)) e.toks_ne_nil, g2⟩
    | error => cases hr
    | panic => cases hr

theorem MebbesR.exprs {s : Stmts} {r : Read (List Mebbe)} : MebbesR s r → ∀ ms s', r = .ok ms s' →
    ∀ t e b, Mebbe.mk t e b ∈ ms → PartIn s e.toks ∧ e.WF
  | .nil _ => by rintro _ _ ⟨⟩ _ _ _ h; cases h
  | .valueEnd _ => by rintro _ _ ⟨⟩
  | .value (f := f) _ _ => by cases f <;> rintro _ _ ⟨⟩
  | .left _ _ _ _ => by rintro _ _ ⟨⟩
  | .body _ _ _ => by rintro _ _ ⟨⟩
  | .cons (r := r) (s := s1) _ he h1 h2 => by
    have ih := h2.exprs
    intro omgs s' hr t e b hm
    cases r with
    | ok a s2 =>
      cases hr
      rcases List.mem_cons.1 hm with hm | hm
      · cases hm
        exact ⟨⟨_, List.mem_cons_self, (List.suffix_cons _ _).isInfix⟩, he⟩
      · obtain ⟨g1, g2⟩ := ih _ _ rfl t e b hm
        exact ⟨g1.mono ((Stmts.Le.in (show Stmts.Le _ _ from h1.le)).trans (Stmts.in_of _ _)) e.toks_ne_nil, g2⟩
    | error => cases hr
    | panic => cases hr

theorem CondR.infix {rest ts : List Token} {cond : Option LoopCondition} (h : CondR rest ts cond) :
    ∀ e ∈ cond.toList.map (fun | .til e => e | .wile e => e), e.toks <:+: ts ∧ e.WF := by
  intro e he
  cases h with
  | none => cases he
  | til _ h => cases List.mem_singleton.1 he; exact ⟨(List.suffix_cons _ _).isInfix, h⟩
  | wile _ h => cases List.mem_singleton.1 he; exact ⟨(List.suffix_cons _ _).isInfix, h⟩

theorem HeadR.exprs_infix {rest ts : List Token} {t label : Token} {op : Option LoopIterationOperation}
    {cond : Option LoopCondition} (h : HeadR rest ts (.loop t label op cond)) :
    (∀ e ∈ cond.toList.map (fun | .til e => e | .wile e => e), e.toks <:+: ts ∧ e.WF) ∧
      ∀ o ∈ op.toList, o.operand.toks <:+: ts ∧ o.operand.WF := by
  cases h with
  | @loop t label ops conds op cond h1 h2 h3 h4 =>
    refine ⟨fun e he => ⟨(h4.infix e he).1.trans ⟨t :: label :: ops, [], by simp⟩, (h4.infix e he).2⟩, fun o ho => ?_⟩
    cases h3 with
    | none => cases ho
    | @some op yr v _ _ h5 => cases List.mem_singleton.1 ho; exact ⟨⟨[t, label, op.token, yr], conds, by simp⟩, h5⟩

theorem NodeR.exprs_in {s s' : Stmts} {node : Node} (h : NodeR s (.ok node s')) :
    ∀ e ∈ node.exprs, PartIn s e.toks ∧ e.WF := by
  intro e he
  have here : ∀ {ts rest : List Token} {later}, e.toks <:+: ts → PartIn ⟨ts ++ rest, later⟩ e.toks := by
    intro ts rest later h
    exact ⟨_, List.mem_cons_self, h.trans (List.prefix_append _ _).isInfix⟩
  generalize hr : Read.ok node s' = r at h
  cases h with
  | simple h => cases hr; exact ⟨here (h.exprs_infix e he).1, (h.exprs_infix e he).2⟩
  | simpleFail => exact absurd hr.symm Fail.read_ne_ok
  | hai => cases hr; cases he
  | headFail => exact absurd hr.symm Fail.read_ne_ok
  | loop h _ _ => cases hr; exact ⟨⟨_, List.mem_cons_self, (h.exprs_infix.1 e he).1⟩, (h.exprs_infix.1 e he).2⟩
  | function => cases hr; cases he
  | switch _ h1 h2 _ =>
    cases hr
    obtain ⟨⟨t, e, b⟩, hm, rfl⟩ := List.mem_map.1 he
    have g := h1.exprs _ _ rfl t e b hm
    exact ⟨g.1.mono (Stmts.in_of _ _) e.toks_ne_nil, g.2⟩
  | conditional _ h1 h2 h3 _ =>
    cases hr
    obtain ⟨⟨t, e, b⟩, hm, rfl⟩ := List.mem_map.1 he
    have g := h2.exprs _ _ rfl t e b hm
    exact ⟨g.1.mono ((Stmts.Le.in (show Stmts.Le _ _ from h1.le)).trans (Stmts.in_of _ _)) e.toks_ne_nil, g.2⟩
  | switchCases => exact absurd hr.symm Fail.read_ne_ok
  | switchDefault => exact absurd hr.symm Fail.read_ne_ok
  | conditionalYes => exact absurd hr.symm Fail.read_ne_ok
  | conditionalMaybe => exact absurd hr.symm Fail.read_ne_ok
  | conditionalNo => exact absurd hr.symm Fail.read_ne_ok
  | _ => cases hr

theorem NodeR.accesses_in {s s' : Stmts} {node : Node} (h : NodeR s (.ok node s')) :
    ∀ v ∈ node.accesses, PartIn s v.toks ∧ v.WF := by
  intro v hv
  generalize hr : Read.ok node s' = r at h
  cases h with
  | simple h =>
    cases hr
    exact ⟨⟨_, List.mem_cons_self, (h.accesses_infix v hv).1.trans (List.prefix_append _ _).isInfix⟩,
      (h.accesses_infix v hv).2⟩
  | simpleFail => exact absurd hr.symm Fail.read_ne_ok
  | hai => cases hr; cases hv
  | headFail => exact absurd hr.symm Fail.read_ne_ok
  | loop h _ _ =>
    cases hr
    obtain ⟨o, ho, rfl⟩ := List.mem_map.1 hv
    exact ⟨⟨_, List.mem_cons_self, (h.exprs_infix.2 o ho).1⟩, (h.exprs_infix.2 o ho).2⟩
  | function => cases hr; cases hv
  | switch => cases hr; cases hv
  | conditional => cases hr; cases hv
  | switchCases => exact absurd hr.symm Fail.read_ne_ok
  | switchDefault => exact absurd hr.symm Fail.read_ne_ok
  | conditionalYes => exact absurd hr.symm Fail.read_ne_ok
  | conditionalMaybe => exact absurd hr.symm Fail.read_ne_ok
  | conditionalNo => exact absurd hr.symm Fail.read_ne_ok
  | _ => cases hr

theorem ReadIn.in {s : Stmts} {node : Node} (h : ReadIn s node) : ∃ s1 s2, s1.In s ∧ NodeR s1 (.ok node s2) := by
  obtain ⟨ts, later, s', h1, h2, h3⟩ := h
  exact ⟨⟨ts, later⟩, s', fun st hst _ => h2.subset hst, h3⟩

theorem partIn_stmt {tokens ts : List Token} (h : PartIn (split tokens) ts) : ∃ k, ts <:+: stmt tokens k := by
  obtain ⟨st, h1, h2⟩ := h
  obtain ⟨k, hk, rfl⟩ := List.getElem_of_mem h1
  exact ⟨k, by simpa [stmt, List.getD_eq_getElem?_getD, List.getElem?_eq_getElem hk] using h2⟩

end Lol
