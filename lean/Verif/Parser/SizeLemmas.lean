import Verif.Parser.ParseLemmas
import Verif.Parser.TreeSpec
import Verif.Parser.ExprComplete

/-! # No error node is without a token; the size of a tree -/

namespace Lol

/-- All results of a program satisfy `R` and all its errors hold a token, whatever the iterator answers. -/
def Prog.All {α : Type} (R : α → Prop) : Prog α → Prop
  | .ret a => R a
  | .err e => e.toks ≠ []
  | .panic _ => True
  | .outOfFuel => True
  | .next k => ∀ t, (k t).All R
  | .peek k => ∀ t, (k t).All R
  | .nextStatement k => ∀ ts, (k ts).All R

theorem Prog.All.bind {α β : Type} {R : α → Prop} {S : β → Prop} {p : Prog α} {f : α → Prog β} (h : p.All R)
    (hf : ∀ a, R a → (f a).All S) : (p >>= f).All S := by
  show (p.bind f).All S
  induction p with
  | ret a => exact hf a h
  | err => exact h
  | panic | outOfFuel => trivial
  | next k ih => exact fun t => ih t (h t)
  | peek k ih => exact fun t => ih t (h t)
  | nextStatement k ih => exact fun t => ih t (h t)

theorem Prog.All.ret {α : Type} {R : α → Prop} {a : α} (h : R a) : (pure a : Prog α).All R := h

theorem Prog.All.fail {α : Type} {R : α → Prop} {e : ASTError} (h : e.toks ≠ []) : (Lol.fail e : Prog α).All R := h

theorem Prog.All.toResult {α : Type} {R : α → Prop} {p : Prog α} (h : p.All R) :
    p.toResult.All fun
      | .ok a => R a
      | .error e => e.toks ≠ [] := by
  induction p with
  | ret a => exact h
  | err => exact h
  | panic | outOfFuel => trivial
  | next k ih => exact fun t => ih t (h t)
  | peek k ih => exact fun t => ih t (h t)
  | nextStatement k ih => exact fun t => ih t (h t)

theorem Prog.All.run {σ α : Type} {I : IterOps σ} {R : α → Prop} {p : Prog α} (h : p.All R) {s s' : σ} {a : α}
    (hr : p.run I s = .ok a s') : R a := by
  induction p generalizing s with
  | ret b => cases hr; exact h
  | err | panic | outOfFuel => cases hr
  | next k ih => exact ih _ (h _) hr
  | peek k ih => exact ih _ (h _) hr
  | nextStatement k ih => exact ih _ (h _) hr

theorem Prog.All.run_err {σ α : Type} {I : IterOps σ} {R : α → Prop} {p : Prog α} (h : p.All R) {s s' : σ}
    {e : ASTError} (hr : p.run I s = .err e s') : e.toks ≠ [] := by
  induction p generalizing s with
  | err => cases hr; exact h
  | ret | panic | outOfFuel => cases hr
  | next k ih => exact ih _ (h _) hr
  | peek k ih => exact ih _ (h _) hr
  | nextStatement k ih => exact ih _ (h _) hr

/-- No condition on the result. -/
abbrev Prog.Any {α : Type} (p : Prog α) : Prop := p.All fun _ => True

theorem next_any : next.Any := fun _ => trivial
theorem peek_any : peek.Any := fun _ => trivial
theorem nextStatement_any : nextStatement.Any := fun _ => trivial
theorem nextIf_any (f : Token → Bool) : (nextIf f).Any := by
  refine peek_any.bind fun t _ => ?_
  cases t with
  | none => exact .ret trivial
  | some t => dsimp only; split <;> first | exact next_any | exact .ret trivial
theorem nextEq_any (ty : TokenType) : (nextIfTokenTypeEq ty).Any := by
  refine peek_any.bind fun t _ => ?_
  cases t with
  | none => exact .ret trivial
  | some t => dsimp only; split <;> first | exact next_any | exact .ret trivial
theorem nextNe_any (ty : TokenType) : (nextIfTokenTypeNe ty).Any := by
  refine peek_any.bind fun t _ => ?_
  cases t with
  | none => exact .ret trivial
  | some t => dsimp only; split <;> first | exact next_any | exact .ret trivial
theorem empty_any : nextStatementShouldBeEmpty.Any := by
  refine nextStatement_any.bind fun ts _ => ?_
  cases ts with
  | nil => exact .ret trivial
  | cons t ts => exact .fail (List.cons_ne_nil t ts)

/-- Goes through a program. -/
macro "all_steps " "[" hs:term,* "]" : tactic => `(tactic|
  repeat' first
    | exact Prog.All.ret trivial
    | exact Prog.All.fail (List.cons_ne_nil _ _)
    | exact trivial
    | exact next_any
    | exact peek_any
    | exact nextStatement_any
    | exact empty_any
    | exact nextIf_any _
    | exact nextEq_any _
    | exact nextNe_any _
    $[| exact $hs]*
    | split
    | (refine Prog.All.bind (R := fun _ => True) ?_ fun _ _ => ?_))

theorem Identifier.parse_any (t : Token) : (Identifier.parse t).Any := by
  unfold Identifier.parse
  all_steps []

theorem parseSlots_any (n : Nat) : (VariableAccess.parseSlots n).Any := by
  induction n with
  | zero => trivial
  | succ n ih =>
    unfold VariableAccess.parseSlots
    all_steps [ih, Identifier.parse_any _]

theorem VariableAccess.parse_any (n : Nat) (t : Token) : (VariableAccess.parse n t).Any := by
  unfold VariableAccess.parse
  all_steps [Identifier.parse_any _, parseSlots_any n]

theorem parseOperands_any {expr : Token → Prog Expr} (h : ∀ t, (expr t).Any) (n : Nat) :
    (parseOperands expr n).Any := by
  induction n with
  | zero => trivial
  | succ n ih =>
    unfold parseOperands
    all_steps [ih, h _]

theorem parseExpr_any (n : Nat) (t : Token) : (parseExpr n t).Any := by
  induction n generalizing t with
  | zero => trivial
  | succ n ih =>
    have h1 : ∀ op, (parseBinary (parseExpr n) op).Any := by
      intro op
      unfold parseBinary
      all_steps [ih _]
    have h2 : ∀ op, (parseUnary (parseExpr n) op).Any := by
      intro op
      unfold parseUnary
      all_steps [ih _]
    have h3 : ∀ op, (parseNary (parseExpr n) n op).Any := by
      intro op
      unfold parseNary
      all_steps [parseOperands_any ih n]
    unfold parseExpr
    split
    all_goals all_steps [h1 _, h2 _, h3 _, VariableAccess.parse_any n t]

theorem IHasA.parse_any (n : Nat) (t : Token) : (IHasA.parse n t).Any := by
  unfold IHasA.parse
  all_steps [Identifier.parse_any _, parseExpr_any n _]

theorem parseExpressions_any (m n : Nat) : (Visible.parseExpressions m n).Any := by
  induction n with
  | zero => trivial
  | succ n ih =>
    unfold Visible.parseExpressions
    all_steps [ih, parseExpr_any m _]

theorem Visible.parse_any (n : Nat) (t : Token) : (Visible.parse n t).Any := by
  unfold Visible.parse
  all_steps [parseExpressions_any n n]

theorem Gimmeh.parse_any (n : Nat) (t : Token) : (Gimmeh.parse n t).Any := by
  unfold Gimmeh.parse
  all_steps [VariableAccess.parse_any n _]

theorem FoundYr.parse_any (n : Nat) (t : Token) : (FoundYr.parse n t).Any := by
  unfold FoundYr.parse
  all_steps [parseExpr_any n _]

theorem Hai.parse_any (t : Token) : (Hai.parse t).Any := by
  unfold Hai.parse
  all_steps []

theorem VariableAssignment.parse_any (n : Nat) (v : VariableAccess) : (VariableAssignment.parse n v).Any := by
  unfold VariableAssignment.parse
  all_steps [parseExpr_any n _]

theorem BukkitSetSlot.parse_any (n : Nat) (v : VariableAccess) : (BukkitSetSlot.parse n v).Any := by
  unfold BukkitSetSlot.parse
  all_steps [parseExpr_any n _, Identifier.parse_any _]

theorem parseArguments_any (m n : Nat) : (IIz.parseArguments m n).Any := by
  induction n with
  | zero => trivial
  | succ n ih =>
    unfold IIz.parseArguments
    all_steps [ih, parseExpr_any m _]

theorem IIz.parse_any (n : Nat) (t : Token) : (IIz.parse n t).Any := by
  unfold IIz.parse
  all_steps [parseArguments_any n n, VariableAccess.parse_any n _]

theorem parseConditional_any (n : Nat) : (parseConditional n).Any := by
  unfold parseConditional
  all_steps [parseExpr_any n _]

theorem parseIterationOperation_any (n : Nat) : (parseIterationOperation n).Any := by
  unfold parseIterationOperation
  all_steps [VariableAccess.parse_any n _]

theorem parseParameters_any (n : Nat) : (parseParameters n).Any := by
  induction n with
  | zero => trivial
  | succ n ih =>
    unfold parseParameters
    all_steps [ih, Identifier.parse_any _]

/-- The errors among the nodes hold tokens. -/
def Solid (nodes : List Node) : Prop := ∀ e, .astError e ∈ nodes → e.toks ≠ []

theorem Solid.nil : Solid [] := fun _ h => absurd h List.not_mem_nil

theorem Solid.append {a b : List Node} (ha : Solid a) (hb : Solid b) : Solid (a ++ b) := fun e h =>
  (List.mem_append.1 h).elim (ha e) (hb e)

theorem Solid.cons {x : Node} {a : List Node} (hx : ∀ e, x ≠ .astError e) (ha : Solid a) : Solid (x :: a) :=
  fun e h => (List.mem_cons.1 h).elim (fun h => absurd h.symm (hx e)) (ha e)

theorem allNodes_append (a b : List Node) : allNodes (a ++ b) = allNodes a ++ allNodes b := by
  induction a with
  | nil => rfl
  | cons x a ih => rw [List.cons_append, allNodes, allNodes, ih, List.append_assoc]

/-- A step whose result does not matter. -/
macro "any_step " h:term : tactic => `(tactic| refine Prog.All.bind (R := fun _ => True) $h fun _ _ => ?_)

section
variable {block : (Token → Bool) → Prog Block} (hb : ∀ stop, (block stop).All fun b => Solid (allNodes b))
include hb

theorem parseImInYr_all (n : Nat) (t : Token) : (parseImInYr block n t).All fun x => Solid x.nodes := by
  unfold parseImInYr
  any_step next_any
  split
  · exact .fail (List.cons_ne_nil _ _)
  split
  · any_step parseIterationOperation_any n
    any_step parseConditional_any n
    any_step empty_any
    refine (hb _).bind fun b h => ?_
    any_step next_any
    split
    · exact .fail (List.cons_ne_nil _ _)
    any_step next_any
    split
    · exact .fail (List.cons_ne_nil _ _)
    split
    · refine .ret ?_
      rw [Node.nodes]
      exact .cons (fun _ h => by cases h) h
    · exact .fail (List.cons_ne_nil _ _)
  · exact .fail (List.cons_ne_nil _ _)

theorem parseHowIzI_all (n : Nat) (t : Token) : (parseHowIzI block n t).All fun x => Solid x.nodes := by
  unfold parseHowIzI
  any_step next_any
  split
  · exact .fail (List.cons_ne_nil _ _)
  any_step Identifier.parse_any _
  any_step parseParameters_any n
  any_step empty_any
  refine (hb _).bind fun b h => ?_
  any_step next_any
  split
  · exact .fail (List.cons_ne_nil _ _)
  split
  · any_step empty_any
    refine .ret ?_
    rw [Node.nodes]
    exact .cons (fun _ h => by cases h) h
  · exact .fail (List.cons_ne_nil _ _)

theorem parseOmgs_all (m n : Nat) : (parseOmgs block m n).All fun x => Solid (nodesOmgs x) := by
  induction n with
  | zero => trivial
  | succ n ih =>
    unfold parseOmgs
    any_step nextIf_any _
    split
    · exact .ret (by rw [nodesOmgs]; exact .nil)
    any_step next_any
    split
    · exact .fail (List.cons_ne_nil _ _)
    any_step parseExpr_any m _
    any_step empty_any
    refine (hb _).bind fun b h => ?_
    refine ih.bind fun more hm => ?_
    exact .ret (by rw [nodesOmgs]; exact h.append hm)

theorem parseMebbes_all (m n : Nat) : (parseMebbes block m n).All fun x => Solid (nodesMebbes x) := by
  induction n with
  | zero => trivial
  | succ n ih =>
    unfold parseMebbes
    any_step nextEq_any _
    split
    · exact .ret (by rw [nodesMebbes]; exact .nil)
    any_step next_any
    split
    · exact .fail (List.cons_ne_nil _ _)
    any_step parseExpr_any m _
    any_step empty_any
    refine (hb _).bind fun b h => ?_
    refine ih.bind fun more hm => ?_
    exact .ret (by rw [nodesMebbes]; exact h.append hm)

theorem parseOmgWtf_all : (parseOmgWtf block).All fun x => Solid (nodesOmgWtf x) := by
  unfold parseOmgWtf
  any_step nextIf_any _
  split
  · exact .ret (by rw [nodesOmgWtf]; exact .nil)
  any_step empty_any
  refine (hb _).bind fun b h => ?_
  exact .ret (by rw [nodesOmgWtf]; exact h)

theorem parseYaRly_all : (parseYaRly block).All fun x => Solid (nodesYaRly x) := by
  unfold parseYaRly
  any_step nextIf_any _
  split
  · exact .ret (by rw [nodesYaRly]; exact .nil)
  any_step empty_any
  refine (hb _).bind fun b h => ?_
  exact .ret (by rw [nodesYaRly]; exact h)

theorem parseNoWai_all : (parseNoWai block).All fun x => Solid (nodesNoWai x) := by
  unfold parseNoWai
  any_step nextIf_any _
  split
  · exact .ret (by rw [nodesNoWai]; exact .nil)
  any_step empty_any
  refine (hb _).bind fun b h => ?_
  exact .ret (by rw [nodesNoWai]; exact h)

theorem parseWtf_all (n : Nat) (t : Token) : (parseWtf block n t).All fun x => Solid x.nodes := by
  unfold parseWtf
  any_step next_any
  split
  · exact .fail (List.cons_ne_nil _ _)
  split
  · any_step empty_any
    refine (parseOmgs_all hb n n).bind fun a h1 => ?_
    refine (parseOmgWtf_all hb).bind fun b h2 => ?_
    any_step next_any
    split
    · exact .fail (List.cons_ne_nil _ _)
    split
    · any_step empty_any
      refine .ret ?_
      rw [Node.nodes]
      exact .cons (fun _ h => by cases h) (h1.append h2)
    · exact .fail (List.cons_ne_nil _ _)
  · exact .fail (List.cons_ne_nil _ _)

theorem parseORly_all (n : Nat) (t : Token) : (parseORly block n t).All fun x => Solid x.nodes := by
  unfold parseORly
  any_step next_any
  split
  · exact .fail (List.cons_ne_nil _ _)
  split
  · any_step empty_any
    refine (parseYaRly_all hb).bind fun a h1 => ?_
    refine (parseMebbes_all hb n n).bind fun b h2 => ?_
    refine (parseNoWai_all hb).bind fun c h3 => ?_
    any_step next_any
    split
    · exact .fail (List.cons_ne_nil _ _)
    split
    · refine .ret ?_
      rw [Node.nodes]
      exact .cons (fun _ h => by cases h) (h1.append (h2.append h3))
    · exact .fail (List.cons_ne_nil _ _)
  · exact .fail (List.cons_ne_nil _ _)

omit hb in
theorem solid_single {x : Node} (h : x.nodes = [x]) (hx : ∀ e, x ≠ .astError e) : Solid x.nodes := by
  rw [h]; exact .cons hx .nil

theorem parseStatement_all (n : Nat) (t : Token) : (parseStatement block n t).All fun x => Solid x.nodes := by
  unfold parseStatement
  split
  · unfold parseAccessStatement
    any_step VariableAccess.parse_any n t
    any_step peek_any
    split
    · exact .ret (solid_single (by rw [Node.nodes]) fun _ h => by cases h)
    split
    · any_step VariableAssignment.parse_any n _
      exact .ret (solid_single (by rw [Node.nodes]) fun _ h => by cases h)
    · any_step BukkitSetSlot.parse_any n _
      exact .ret (solid_single (by rw [Node.nodes]) fun _ h => by cases h)
    · trivial
  split
  · any_step IHasA.parse_any n t
    exact .ret (solid_single (by rw [Node.nodes]) fun _ h => by cases h)
  · any_step Visible.parse_any n t
    exact .ret (solid_single (by rw [Node.nodes]) fun _ h => by cases h)
  · any_step Gimmeh.parse_any n t
    exact .ret (solid_single (by rw [Node.nodes]) fun _ h => by cases h)
  · any_step FoundYr.parse_any n t
    exact .ret (solid_single (by rw [Node.nodes]) fun _ h => by cases h)
  · any_step Hai.parse_any t
    exact .ret (solid_single (by rw [Node.nodes]) fun _ h => by cases h)
  · exact .ret (solid_single (by rw [Node.nodes]) fun _ h => by cases h)
  · exact .ret (solid_single (by rw [Node.nodes]) fun _ h => by cases h)
  · any_step IIz.parse_any n t
    exact .ret (solid_single (by rw [Node.nodes]) fun _ h => by cases h)
  · exact parseImInYr_all hb n t
  · exact parseHowIzI_all hb n t
  · exact parseWtf_all hb n t
  · exact parseORly_all hb n t
  · any_step parseExpr_any n t
    exact .ret (solid_single (by rw [Node.nodes]) fun _ h => by cases h)

end

theorem solid_error {e : ASTError} (h : e.toks ≠ []) : Solid (allNodes [.astError e]) := by
  intro x hx
  simp only [allNodes, Node.nodes, List.append_nil, List.mem_singleton] at hx
  cases hx; exact h

theorem parseBlock_all (n : Nat) (stop : Token → Bool) : (parseBlock n stop).All fun b => Solid (allNodes b) := by
  induction n generalizing stop with
  | zero => trivial
  | succ n ih =>
    have hs := parseStatement_all ih n
    have rest : ∀ nodes errors : Block, Solid (allNodes nodes) → Solid (allNodes errors) → Prog.All
        (fun b => Solid (allNodes b)) (do
          match ← peek with
          | none => pure (nodes ++ errors)
          | some token =>
            if stop token then pure (nodes ++ errors)
            else
              let more ← parseBlock n stop
              pure (nodes ++ errors ++ more)) := by
      intro nodes errors h1 h2
      have h12 : Solid (allNodes (nodes ++ errors)) := by
        rw [allNodes_append]; exact h1.append h2
      any_step peek_any
      split
      · exact .ret h12
      split
      · exact .ret h12
      · refine (ih stop).bind fun more h3 => .ret ?_
        rw [allNodes_append]; exact h12.append h3
    have tail : ∀ nodes : Block, Solid (allNodes nodes) → Prog.All (fun b => Solid (allNodes b)) (do
        let errors ← do
          match ← nextStatementShouldBeEmpty.toResult with
          | .ok _ => pure []
          | .error e => pure [Node.astError e]
        match ← peek with
        | none => pure (nodes ++ errors)
        | some token =>
          if stop token then pure (nodes ++ errors)
          else
            let more ← parseBlock n stop
            pure (nodes ++ errors ++ more)) := by
      intro nodes h1
      refine empty_any.toResult.bind ?_
      rintro (e | _) h
      · exact rest nodes _ h1 (solid_error h)
      · exact rest nodes _ h1 .nil
    unfold parseBlock
    any_step next_any
    rename_i o _
    cases o with
    | none => exact tail [] .nil
    | some t =>
      refine (hs t).toResult.bind ?_
      rintro (e | node) h
      · exact tail _ (solid_error h)
      · refine tail [node] ?_
        rw [allNodes, allNodes, List.append_nil]; exact h

/-- The errors in a tree hold tokens. -/
theorem parse_solid {tokens : List Token} {nodes : Block} (h : parse tokens = .ok nodes) : Solid (allNodes nodes) := by
  unfold parse parseWith at h
  cases hr : (parseBlock (parseFuel tokens) stopRoot).run StatementIterator.ops (StatementIterator.new tokens) with
  | ok b s =>
    rw [hr] at h
    cases h
    exact (parseBlock_all _ _).run hr
  | err e s =>
    rw [hr] at h
    cases h
    exact solid_error ((parseBlock_all _ _).run_err hr)
  | panic | outOfFuel => rw [hr] at h; cases h

mutual

theorem Expr.subs_le : (e : Expr) → e.subs.length ≤ e.toks.length
  | .value v => by
    obtain ⟨t, ts, h⟩ := Expr.toks_ne (.value v)
    rw [h, Expr.subs]; simp
  | .unary op e => by
    have := e.subs_le
    rw [Expr.subs, Expr.toks]; simp only [List.length_cons]; omega
  | .binary op l an r => by
    have h1 := l.subs_le
    have h2 := r.subs_le
    rw [Expr.subs, Expr.toks]; simp only [List.length_cons, List.length_append]; omega
  | .nary op es mkay => by
    have := subsOperands_le es
    rw [Expr.subs, Expr.toks]; simp only [List.length_cons, List.length_append]; omega

theorem subsOperands_le : (es : List Operand) → (subsOperands es).length ≤ (toksOperands es).length
  | [] => by rw [subsOperands]; exact Nat.zero_le _
  | .mk e an :: es => by
    have h1 := e.subs_le
    have h2 := subsOperands_le es
    rw [subsOperands, toksOperands]; simp only [List.length_append]; omega

end

/-- The number of expressions of nodes, with those inside them. -/
def exprCount (nodes : List Node) : Nat := ((nodes.flatMap (·.exprs)).flatMap Expr.subs).length

theorem exprCount_append (a b : List Node) : exprCount (a ++ b) = exprCount a + exprCount b := by
  simp only [exprCount, List.flatMap_append, List.length_append]

theorem exprCount_cons (x : Node) (a : List Node) : exprCount (x :: a) = (x.exprs.flatMap Expr.subs).length + exprCount a := by
  simp only [exprCount, List.flatMap_cons, List.flatMap_append, List.length_append]

theorem exprs_le (es : List Expr) : (es.flatMap Expr.subs).length ≤ (es.flatMap fun x => x.toks).length := by
  induction es with
  | nil => exact Nat.le_refl _
  | cons e es ih =>
    have := e.subs_le
    simp only [List.flatMap_cons, List.length_append]; omega

/-- The literal of a case. -/
def WtfOmg.expr : WtfOmg → Expr
  | .mk _ e _ => e

/-- The condition of a `MEBBE` part. -/
def Mebbe.expr : Mebbe → Expr
  | .mk _ e _ => e

theorem exprs_wtf (t : Token) (omgs : List WtfOmg) (omgWtf : Option WtfOmgWtf) :
    (Node.wtf t omgs omgWtf).exprs = omgs.map WtfOmg.expr := by
  rw [Node.exprs]
  exact List.map_congr_left fun x _ => by cases x; rfl

theorem exprs_oRly (t : Token) (y : Option YaRly) (n : Option NoWai) (mebbes : List Mebbe) :
    (Node.oRly t y n mebbes).exprs = mebbes.map Mebbe.expr := by
  rw [Node.exprs]
  exact List.map_congr_left fun x _ => by cases x; rfl

mutual

theorem Node.nodes_le : (x : Node) → Solid x.nodes → x.nodes.length ≤ x.toks.length ∧ exprCount x.nodes ≤ x.toks.length
  | .iHasA n, _ => by
    rw [Node.nodes, Node.toks, exprCount_cons]
    obtain ⟨_, _, v⟩ := n
    cases v with
    | none => simp [Node.exprs, exprCount]
    | some v =>
      cases v with
      | expression e => have := e.subs_le; simp [Node.exprs, exprCount, IHasAInitialValue.toks]; omega
      | type t => simp [Node.exprs, exprCount]
  | .hai n, _ => by rw [Node.nodes, Node.toks]; simp [exprCount, Node.exprs]
  | .imInYr t label op cond body endLabel, h => by
    rw [Node.nodes] at h
    have hb := allNodes_le body fun e he => h e (List.mem_cons_of_mem _ he)
    rw [Node.nodes, Node.toks, exprCount_cons]
    cases cond with
    | none => simp [Node.exprs]; omega
    | some c =>
      cases c with
      | til e => have := e.subs_le; simp [Node.exprs, LoopCondition.toks]; omega
      | wile e => have := e.subs_le; simp [Node.exprs, LoopCondition.toks]; omega
  | .bukkitSetSlot n, _ => by
    have := n.value.subs_le
    obtain ⟨t, ts, ht⟩ := n.slotName.toks_ne
    rw [Node.nodes, Node.toks, exprCount_cons]; simp [Node.exprs, exprCount, ht]; omega
  | .variableAssignment n, _ => by
    have := n.expression.subs_le
    rw [Node.nodes, Node.toks, exprCount_cons]; simp [Node.exprs, exprCount]; omega
  | .visible n, _ => by
    have := exprs_le n.expressions
    rw [Node.nodes, Node.toks, exprCount_cons]
    simp only [Node.exprs, exprCount, List.length_cons, List.length_append, List.flatMap_nil, List.length_nil]; omega
  | .foundYr n, _ => by
    have := n.expression.subs_le
    rw [Node.nodes, Node.toks, exprCount_cons]; simp [Node.exprs, exprCount]; omega
  | .wtf t omgs omgWtf, h => by
    rw [Node.nodes] at h
    have h1 := nodesOmgs_le omgs fun e he => h e (by simp [he])
    have h2 := nodesOmgWtf_le omgWtf fun e he => h e (by simp [he])
    rw [Node.nodes, Node.toks, exprCount_cons, exprCount_append, exprs_wtf]
    simp only [List.length_cons, List.length_append]; omega
  | .oRly t yaRly noWai mebbes, h => by
    rw [Node.nodes] at h
    have h1 := nodesYaRly_le yaRly fun e he => h e (by simp [he])
    have h2 := nodesMebbes_le mebbes fun e he => h e (by simp [he])
    have h3 := nodesNoWai_le noWai fun e he => h e (by simp [he])
    rw [Node.nodes, Node.toks, exprCount_cons, exprCount_append, exprCount_append, exprs_oRly]
    simp only [List.length_cons, List.length_append]; omega
  | .iIz n, _ => by
    have := exprs_le n.arguments
    rw [Node.nodes, Node.toks, exprCount_cons]
    simp only [Node.exprs, exprCount, List.length_cons, List.length_append, List.flatMap_nil, List.length_nil]; omega
  | .howIzI t name params body, h => by
    rw [Node.nodes] at h
    have hb := allNodes_le body fun e he => h e (List.mem_cons_of_mem _ he)
    rw [Node.nodes, Node.toks, exprCount_cons]
    simp only [Node.exprs, List.length_cons, List.length_append, List.flatMap_nil, List.length_nil]; omega
  | .gtfo t, _ => by rw [Node.nodes, Node.toks]; simp [exprCount, Node.exprs]
  | .gimmeh n, _ => by rw [Node.nodes, Node.toks]; simp [exprCount, Node.exprs]
  | .expression e, _ => by
    have h1 := e.subs_le
    obtain ⟨t, ts, ht⟩ := e.toks_ne
    have h2 : 0 < e.toks.length := by rw [ht]; exact Nat.succ_pos _
    rw [Node.nodes, Node.toks, exprCount_cons]; simp [Node.exprs, exprCount]; omega
  | .astError e, h => by
    have := h e (by rw [Node.nodes]; simp)
    rw [Node.nodes, Node.toks]
    have : 0 < e.toks.length := List.length_pos_iff.2 this
    simp [exprCount, Node.exprs]; omega
  | .kThxBye t, _ => by rw [Node.nodes, Node.toks]; simp [exprCount, Node.exprs]

theorem nodesOmgs_le : (l : List WtfOmg) → Solid (nodesOmgs l) → (nodesOmgs l).length ≤ (toksOmgs l).length ∧
    ((l.map WtfOmg.expr).flatMap Expr.subs).length + exprCount (nodesOmgs l) ≤ (toksOmgs l).length
  | [], _ => by simp [nodesOmgs, exprCount]
  | .mk t e b :: l, h => by
    rw [nodesOmgs] at h
    have h1 := allNodes_le b fun e he => h e (by simp [he])
    have h2 := nodesOmgs_le l fun e he => h e (by simp [he])
    have h3 := e.subs_le
    rw [nodesOmgs, toksOmgs, exprCount_append]
    simp only [List.map_cons, WtfOmg.expr, List.flatMap_cons, List.length_append, List.length_cons] at *; omega

theorem nodesOmgWtf_le : (l : Option WtfOmgWtf) → Solid (nodesOmgWtf l) →
    (nodesOmgWtf l).length ≤ (toksOmgWtf l).length ∧ exprCount (nodesOmgWtf l) ≤ (toksOmgWtf l).length
  | none, _ => by simp [nodesOmgWtf, exprCount]
  | some (.mk t b), h => by
    rw [nodesOmgWtf] at h
    have h1 := allNodes_le b h
    rw [nodesOmgWtf, toksOmgWtf]
    simp only [List.length_cons]; omega

theorem nodesYaRly_le : (l : Option YaRly) → Solid (nodesYaRly l) →
    (nodesYaRly l).length ≤ (toksYaRly l).length ∧ exprCount (nodesYaRly l) ≤ (toksYaRly l).length
  | none, _ => by simp [nodesYaRly, exprCount]
  | some (.mk t b), h => by
    rw [nodesYaRly] at h
    have h1 := allNodes_le b h
    rw [nodesYaRly, toksYaRly]
    simp only [List.length_cons]; omega

theorem nodesMebbes_le : (l : List Mebbe) → Solid (nodesMebbes l) → (nodesMebbes l).length ≤ (toksMebbes l).length ∧
    ((l.map Mebbe.expr).flatMap Expr.subs).length + exprCount (nodesMebbes l) ≤ (toksMebbes l).length
  | [], _ => by simp [nodesMebbes, exprCount]
  | .mk t e b :: l, h => by
    rw [nodesMebbes] at h
    have h1 := allNodes_le b fun e he => h e (by simp [he])
    have h2 := nodesMebbes_le l fun e he => h e (by simp [he])
    have h3 := e.subs_le
    rw [nodesMebbes, toksMebbes, exprCount_append]
    simp only [List.map_cons, Mebbe.expr, List.flatMap_cons, List.length_append, List.length_cons] at *; omega

theorem nodesNoWai_le : (l : Option NoWai) → Solid (nodesNoWai l) →
    (nodesNoWai l).length ≤ (toksNoWai l).length ∧ exprCount (nodesNoWai l) ≤ (toksNoWai l).length
  | none, _ => by simp [nodesNoWai, exprCount]
  | some (.mk t b), h => by
    rw [nodesNoWai] at h
    have h1 := allNodes_le b h
    rw [nodesNoWai, toksNoWai]
    simp only [List.length_cons]; omega

theorem allNodes_le : (b : List Node) → Solid (allNodes b) →
    (allNodes b).length ≤ (toksBlock b).length ∧ exprCount (allNodes b) ≤ (toksBlock b).length
  | [], _ => by simp [allNodes, exprCount]
  | x :: b, h => by
    rw [allNodes] at h
    have h1 := x.nodes_le fun e he => h e (by simp [he])
    have h2 := allNodes_le b fun e he => h e (by simp [he])
    rw [allNodes, toksBlock, exprCount_append]
    simp only [List.length_append]; omega

end

end Lol
