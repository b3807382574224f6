import Verif.Parser.Equality
import Verif.Parser.ShapeSpec
import Verif.Parser.StmtSpec

set_option linter.unusedSectionVars false

/-! # Lemmas on the equality of trees -/

namespace Lol

/-! ## Equal values have the same shape -/

section
variable {eq : Token → Token → Bool}

theorem optEq_map {α β : Type} {f : α → α → Bool} {g : α → β} (h : ∀ a b, f a b = true → g a = g b) :
    (a b : Option α) → optEq f a b = true → a.map g = b.map g
  | none, none, _ => rfl
  | some a, some b, he => congrArg some (h a b he)

theorem isEqv_map {α β : Type} {f : α → α → Bool} {g : α → β} (h : ∀ a b, f a b = true → g a = g b) :
    (a b : List α) → a.isEqv b f = true → a.map g = b.map g
  | [], [], _ => rfl
  | x :: a, y :: b, he => by
    simp only [List.isEqv, Bool.and_eq_true] at he
    simp only [List.map_cons, h x y he.1, isEqv_map h a b he.2]

theorem blank_eq (a b : Token) : blank a = blank b := rfl

theorem optEq_blank (a b : Option Token) (h : optEq eq a b = true) : a.map blank = b.map blank :=
  optEq_map (fun _ _ _ => rfl) a b h

theorem isEqv_blank (a b : List Token) (h : a.isEqv b eq = true) : a.map blank = b.map blank :=
  isEqv_map (fun _ _ _ => rfl) a b h

theorem Identifier.shape_of_beq (a b : Identifier) (h : a.beq eq b = true) : a.map blank = b.map blank := by
  simp only [Identifier.beq, Bool.and_eq_true] at h
  simp only [Identifier.map, blank_eq a.name b.name, optEq_blank _ _ h.2]

theorem ASTType.shape_of_beq (a b : ASTType) (h : a.beq eq b = true) : a.map blank = b.map blank := by
  cases a <;> cases b <;> first | rfl | exact absurd h (by simp [ASTType.beq])

theorem VariableAccessSlot.shape_of_beq (a b : VariableAccessSlot) (h : a.beq eq b = true) :
    a.map blank = b.map blank := by
  simp only [VariableAccessSlot.beq, Bool.and_eq_true] at h
  simp only [VariableAccessSlot.map, blank_eq a.slotAccessToken b.slotAccessToken, Identifier.shape_of_beq _ _ h.2]

theorem VariableAccess.shape_of_beq (a b : VariableAccess) (h : a.beq eq b = true) : a.map blank = b.map blank := by
  simp only [VariableAccess.beq, Bool.and_eq_true] at h
  simp only [VariableAccess.map, Identifier.shape_of_beq _ _ h.1, isEqv_map VariableAccessSlot.shape_of_beq _ _ h.2]

theorem ExprValue.shape_of_beq (a b : ExprValue) (h : a.beq eq b = true) : a.map blank = b.map blank := by
  cases a <;> cases b <;> simp only [ExprValue.beq, Bool.false_eq_true] at h
  · simp only [ExprValue.map, VariableAccess.shape_of_beq _ _ h]
  · rfl

theorem BinaryOpt.shape_of_beq (a b : BinaryOpt) (h : a.beq eq b = true) : a.map blank = b.map blank := by
  cases a <;> cases b <;> first | rfl | exact absurd h (by simp [BinaryOpt.beq])

theorem UnaryOpt.shape_of_beq (a b : UnaryOpt) (_ : a.beq eq b = true) : a.map blank = b.map blank := by
  cases a; cases b; rfl

theorem NaryOpt.shape_of_beq (a b : NaryOpt) (h : a.beq eq b = true) : a.map blank = b.map blank := by
  cases a <;> cases b <;> first | rfl | exact absurd h (by simp [NaryOpt.beq])

mutual

theorem Expr.shape_of_beq : (a b : Expr) → a.beq eq b = true → a.map blank = b.map blank
  | .binary o l an r, b, h => by
    cases b <;> simp only [Expr.beq, Bool.and_eq_true, Bool.false_eq_true] at h
    simp only [Expr.map, BinaryOpt.shape_of_beq _ _ h.1, Expr.shape_of_beq l _ h.2.1, optEq_blank _ _ h.2.2.1,
      Expr.shape_of_beq r _ h.2.2.2]
  | .unary o e, b, h => by
    cases b <;> simp only [Expr.beq, Bool.and_eq_true, Bool.false_eq_true] at h
    simp only [Expr.map, UnaryOpt.shape_of_beq _ _ h.1, Expr.shape_of_beq e _ h.2]
  | .nary o es m, b, h => by
    cases b <;> simp only [Expr.beq, Bool.and_eq_true, Bool.false_eq_true] at h
    simp only [Expr.map, NaryOpt.shape_of_beq _ _ h.1, shape_of_eqOperands es _ h.2.1, optEq_blank _ _ h.2.2]
  | .value v, b, h => by
    cases b <;> simp only [Expr.beq, Bool.false_eq_true] at h
    simp only [Expr.map, ExprValue.shape_of_beq _ _ h]

theorem shape_of_eqOperands : (a b : List Operand) → eqOperands eq a b = true → mapOperands blank a = mapOperands blank b
  | [], [], _ => rfl
  | [], _ :: _, h => by simp [eqOperands] at h
  | _ :: _, [], h => by simp [eqOperands] at h
  | .mk e an :: es, .mk e' an' :: es', h => by
    simp only [eqOperands, Bool.and_eq_true] at h
    simp only [mapOperands, Expr.shape_of_beq e _ h.1, optEq_blank _ _ h.2.1, shape_of_eqOperands es _ h.2.2]

end

theorem ASTError.shape_of_beq (a b : ASTError) (h : a.beq eq b = true) : a.map blank = b.map blank := by
  cases a <;> cases b <;> simp only [ASTError.beq, Bool.false_eq_true] at h <;>
    first
    | rfl
    | (simp only [ASTError.map, isEqv_blank _ _ h]; done)
    | (rename_i x y; cases x <;> cases y <;>
        first
        | rfl
        | exact absurd h (by simp [IHasAError.beq, VariableAssignmentError.beq, ORlyError.beq, ImInYrError.beq,
            IIzError.beq]))

theorem IHasAInitialValue.shape_of_beq (a b : IHasAInitialValue) (h : a.beq eq b = true) :
    a.map blank = b.map blank := by
  cases a <;> cases b <;> simp only [IHasAInitialValue.beq, Bool.false_eq_true] at h
  · simp only [IHasAInitialValue.map, Expr.shape_of_beq _ _ h]
  · simp only [IHasAInitialValue.map, ASTType.shape_of_beq _ _ h]

theorem LoopOperation.shape_of_beq (a b : LoopOperation) (h : a.beq eq b = true) : a.map blank = b.map blank := by
  cases a <;> cases b <;> first | rfl | exact absurd h (by simp [LoopOperation.beq])

theorem LoopCondition.shape_of_beq (a b : LoopCondition) (h : a.beq eq b = true) : a.map blank = b.map blank := by
  cases a <;> cases b <;> simp only [LoopCondition.beq, Bool.false_eq_true] at h <;>
    simp only [LoopCondition.map, Expr.shape_of_beq _ _ h]

theorem LoopIterationOperation.shape_of_beq (a b : LoopIterationOperation) (h : a.beq eq b = true) :
    a.map blank = b.map blank := by
  simp only [LoopIterationOperation.beq, Bool.and_eq_true] at h
  simp only [LoopIterationOperation.map, LoopOperation.shape_of_beq _ _ h.1, VariableAccess.shape_of_beq _ _ h.2]

mutual

theorem Node.shape_of_beq : (a b : Node) → a.beq eq b = true → a.map blank = b.map blank
  | .iHasA n, b, h => by
    cases b <;> simp only [Node.beq, IHasA.beq, Bool.and_eq_true, Bool.false_eq_true] at h
    simp only [Node.map, IHasA.map, blank, Identifier.shape_of_beq _ _ h.2.1,
      optEq_map IHasAInitialValue.shape_of_beq _ _ h.2.2]
  | .hai n, b, h => by
    cases b <;> simp only [Node.beq, Hai.beq, Bool.and_eq_true, Bool.false_eq_true] at h
    simp only [Node.map, Hai.map, blank_eq n.haiToken, isEqv_blank _ _ h.2]
    rfl
  | .imInYr t l o c b e, y, h => by
    cases y <;> simp only [Node.beq, Bool.and_eq_true, Bool.false_eq_true] at h
    simp only [Node.map, blank, optEq_map LoopIterationOperation.shape_of_beq _ _ h.2.2.1,
      optEq_map LoopCondition.shape_of_beq _ _ h.2.2.2.1, shape_of_eqBlock b _ h.2.2.2.2.1]
  | .bukkitSetSlot n, b, h => by
    cases b <;> simp only [Node.beq, BukkitSetSlot.beq, Bool.and_eq_true, Bool.false_eq_true] at h
    simp only [Node.map, BukkitSetSlot.map, VariableAccess.shape_of_beq _ _ h.1, Identifier.shape_of_beq _ _ h.2.1,
      Expr.shape_of_beq _ _ h.2.2]
  | .variableAssignment n, b, h => by
    cases b <;> simp only [Node.beq, VariableAssignment.beq, Bool.and_eq_true, Bool.false_eq_true] at h
    simp only [Node.map, VariableAssignment.map, VariableAccess.shape_of_beq _ _ h.1, Expr.shape_of_beq _ _ h.2.1]
    rfl
  | .visible n, b, h => by
    cases b <;> simp only [Node.beq, Visible.beq, Bool.and_eq_true, Bool.false_eq_true] at h
    simp only [Node.map, Visible.map, isEqv_map Expr.shape_of_beq _ _ h.2.1, optEq_blank _ _ h.2.2]
    rfl
  | .foundYr n, b, h => by
    cases b <;> simp only [Node.beq, FoundYr.beq, Bool.and_eq_true, Bool.false_eq_true] at h
    simp only [Node.map, FoundYr.map, Expr.shape_of_beq _ _ h.2]
    rfl
  | .wtf t o w, b, h => by
    cases b <;> simp only [Node.beq, Bool.and_eq_true, Bool.false_eq_true] at h
    simp only [Node.map, shape_of_eqOmgs o _ h.2.1, shape_of_eqOmgWtf w _ h.2.2]
    rfl
  | .oRly t y n m, b, h => by
    cases b <;> simp only [Node.beq, Bool.and_eq_true, Bool.false_eq_true] at h
    simp only [Node.map, shape_of_eqYaRly y _ h.2.1, shape_of_eqNoWai n _ h.2.2.1, shape_of_eqMebbes m _ h.2.2.2]
    rfl
  | .iIz n, b, h => by
    cases b <;> simp only [Node.beq, IIz.beq, Bool.and_eq_true, Bool.false_eq_true] at h
    simp only [Node.map, IIz.map, VariableAccess.shape_of_beq _ _ h.2.1, isEqv_map Expr.shape_of_beq _ _ h.2.2]
    rfl
  | .howIzI t n p b, y, h => by
    cases y <;> simp only [Node.beq, Bool.and_eq_true, Bool.false_eq_true] at h
    simp only [Node.map, Identifier.shape_of_beq _ _ h.2.1, isEqv_map Identifier.shape_of_beq _ _ h.2.2.1,
      shape_of_eqBlock b _ h.2.2.2]
    rfl
  | .gtfo t, b, h => by
    cases b <;> simp only [Node.beq, Bool.false_eq_true] at h
    rfl
  | .gimmeh n, b, h => by
    cases b <;> simp only [Node.beq, Gimmeh.beq, Bool.and_eq_true, Bool.false_eq_true] at h
    simp only [Node.map, Gimmeh.map, VariableAccess.shape_of_beq _ _ h.2]
    rfl
  | .expression e, b, h => by
    cases b <;> simp only [Node.beq, Bool.false_eq_true] at h
    simp only [Node.map, Expr.shape_of_beq _ _ h]
  | .astError e, b, h => by
    cases b <;> simp only [Node.beq, Bool.false_eq_true] at h
    simp only [Node.map, ASTError.shape_of_beq _ _ h]
  | .kThxBye t, b, h => by
    cases b <;> simp only [Node.beq, Bool.false_eq_true] at h
    rfl

theorem shape_of_eqOmgs : (a b : List WtfOmg) → eqOmgs eq a b = true → mapOmgs blank a = mapOmgs blank b
  | [], [], _ => rfl
  | [], _ :: _, h => by simp [eqOmgs] at h
  | _ :: _, [], h => by simp [eqOmgs] at h
  | .mk t e b :: r, .mk t' e' b' :: r', h => by
    simp only [eqOmgs, Bool.and_eq_true] at h
    simp only [mapOmgs, blank_eq t t', Expr.shape_of_beq _ _ h.2.1, shape_of_eqBlock b _ h.2.2.1, shape_of_eqOmgs r _ h.2.2.2]

theorem shape_of_eqOmgWtf : (a b : Option WtfOmgWtf) → eqOmgWtf eq a b = true → mapOmgWtf blank a = mapOmgWtf blank b
  | none, none, _ => rfl
  | none, some _, h => by simp [eqOmgWtf] at h
  | some _, none, h => by simp [eqOmgWtf] at h
  | some (.mk t b), some (.mk t' b'), h => by
    simp only [eqOmgWtf, Bool.and_eq_true] at h
    simp only [mapOmgWtf, blank_eq t t', shape_of_eqBlock b _ h.2]

theorem shape_of_eqYaRly : (a b : Option YaRly) → eqYaRly eq a b = true → mapYaRly blank a = mapYaRly blank b
  | none, none, _ => rfl
  | none, some _, h => by simp [eqYaRly] at h
  | some _, none, h => by simp [eqYaRly] at h
  | some (.mk t b), some (.mk t' b'), h => by
    simp only [eqYaRly, Bool.and_eq_true] at h
    simp only [mapYaRly, blank_eq t t', shape_of_eqBlock b _ h.2]

theorem shape_of_eqMebbes : (a b : List Mebbe) → eqMebbes eq a b = true → mapMebbes blank a = mapMebbes blank b
  | [], [], _ => rfl
  | [], _ :: _, h => by simp [eqMebbes] at h
  | _ :: _, [], h => by simp [eqMebbes] at h
  | .mk t e b :: r, .mk t' e' b' :: r', h => by
    simp only [eqMebbes, Bool.and_eq_true] at h
    simp only [mapMebbes, blank_eq t t', Expr.shape_of_beq _ _ h.2.1, shape_of_eqBlock b _ h.2.2.1,
      shape_of_eqMebbes r _ h.2.2.2]

theorem shape_of_eqNoWai : (a b : Option NoWai) → eqNoWai eq a b = true → mapNoWai blank a = mapNoWai blank b
  | none, none, _ => rfl
  | none, some _, h => by simp [eqNoWai] at h
  | some _, none, h => by simp [eqNoWai] at h
  | some (.mk t b), some (.mk t' b'), h => by
    simp only [eqNoWai, Bool.and_eq_true] at h
    simp only [mapNoWai, blank_eq t t', shape_of_eqBlock b _ h.2]

theorem shape_of_eqBlock : (a b : List Node) → eqBlock eq a b = true → mapBlock blank a = mapBlock blank b
  | [], [], _ => rfl
  | [], _ :: _, h => by simp [eqBlock] at h
  | _ :: _, [], h => by simp [eqBlock] at h
  | x :: r, y :: r', h => by
    simp only [eqBlock, Bool.and_eq_true] at h
    simp only [mapBlock, Node.shape_of_beq x _ h.1, shape_of_eqBlock r _ h.2]

end

/-! ## Values of the same shape are equal if their tokens are, one by one -/

/-- The tokens `a` and `b`, followed by any others, are compared one by one as `v` says. -/
def Pairs (eq : Token → Token → Bool) (a b : List Token) (v : Bool) : Prop :=
  ∀ r s : List Token, (a ++ r).isEqv (b ++ s) eq = (v && r.isEqv s eq)

theorem Pairs.nil : Pairs eq [] [] true := fun r s => by simp

theorem Pairs.one (a b : Token) : Pairs eq [a] [b] (eq a b) := fun r s => by simp [List.isEqv]

theorem Pairs.append {a b c d : List Token} {v w : Bool} (h : Pairs eq a b v) (h' : Pairs eq c d w) :
    Pairs eq (a ++ c) (b ++ d) (v && w) := fun r s => by
  rw [List.append_assoc, List.append_assoc, h, h', Bool.and_assoc]

theorem Pairs.cons {c d : List Token} {w : Bool} (a b : Token) (h' : Pairs eq c d w) :
    Pairs eq (a :: c) (b :: d) (eq a b && w) := (Pairs.one a b).append h'

theorem Pairs.of_eq {a b : List Token} {v w : Bool} (h : Pairs eq a b v) (hv : v = w) : Pairs eq a b w := hv ▸ h

theorem Pairs.opt : (a b : Option Token) → a.map blank = b.map blank → Pairs eq a.toList b.toList (optEq eq a b)
  | none, none, _ => .nil
  | none, some _, h => by cases h
  | some _, none, h => by cases h
  | some a, some b, _ => .one a b

theorem Pairs.optMap {α β : Type} {f : α → α → Bool} {g : α → β} {toks : α → List Token}
    (H : ∀ a b, g a = g b → Pairs eq (toks a) (toks b) (f a b)) :
    (a b : Option α) → a.map g = b.map g → Pairs eq (a.toList.flatMap toks) (b.toList.flatMap toks) (optEq f a b)
  | none, none, _ => .nil
  | none, some _, h => by cases h
  | some _, none, h => by cases h
  | some a, some b, h => by
    simp only [Option.map_some, Option.some.injEq] at h
    simpa [optEq] using H a b h

theorem Pairs.list {α β : Type} {f : α → α → Bool} {g : α → β} {toks : α → List Token}
    (H : ∀ a b, g a = g b → Pairs eq (toks a) (toks b) (f a b)) :
    (a b : List α) → a.map g = b.map g → Pairs eq (a.flatMap toks) (b.flatMap toks) (a.isEqv b f)
  | [], [], _ => .nil
  | [], _ :: _, h => by cases h
  | _ :: _, [], h => by cases h
  | x :: a, y :: b, h => by
    simp only [List.map_cons, List.cons.injEq] at h
    simpa only [List.flatMap_cons, List.isEqv] using (H x y h.1).append (Pairs.list H a b h.2)

theorem Pairs.tokens : (a b : List Token) → a.map blank = b.map blank → Pairs eq a b (a.isEqv b eq)
  | [], [], _ => .nil
  | [], _ :: _, h => by cases h
  | _ :: _, [], h => by cases h
  | x :: a, y :: b, h => by
    simp only [List.map_cons, List.cons.injEq] at h
    exact .cons x y (Pairs.tokens a b h.2)

theorem Identifier.pairs (a b : Identifier) (h : a.map blank = b.map blank) :
    Pairs eq a.toks b.toks (a.beq eq b) := by
  simp only [Identifier.map, Identifier.mk.injEq] at h
  exact ((Pairs.opt _ _ h.2).append (.one a.name b.name)).of_eq (Bool.and_comm ..)

theorem ASTType.pairs (a b : ASTType) (h : a.map blank = b.map blank) : Pairs eq [a.token] [b.token] (a.beq eq b) := by
  cases a <;> cases b <;> first | exact .one _ _ | (simp [ASTType.map] at h; done)

theorem VariableAccessSlot.pairs (a b : VariableAccessSlot) (h : a.map blank = b.map blank) :
    Pairs eq a.toks b.toks (a.beq eq b) := by
  simp only [VariableAccessSlot.map, VariableAccessSlot.mk.injEq] at h
  exact .cons _ _ (Identifier.pairs _ _ h.2)

theorem VariableAccess.pairs (a b : VariableAccess) (h : a.map blank = b.map blank) :
    Pairs eq a.toks b.toks (a.beq eq b) := by
  simp only [VariableAccess.map, VariableAccess.mk.injEq] at h
  exact (Identifier.pairs _ _ h.1).append (.list VariableAccessSlot.pairs _ _ h.2)

theorem ExprValue.pairs (a b : ExprValue) (h : a.map blank = b.map blank) : Pairs eq a.toks b.toks (a.beq eq b) := by
  cases a <;> cases b <;> simp only [ExprValue.map, ExprValue.variableAccess.injEq, reduceCtorEq] at h
  · exact VariableAccess.pairs _ _ h
  · exact .one _ _

theorem BinaryOpt.pairs (a b : BinaryOpt) (h : a.map blank = b.map blank) :
    Pairs eq [a.token] [b.token] (a.beq eq b) := by
  cases a <;> cases b <;> first | exact .one _ _ | (simp [BinaryOpt.map] at h; done)

theorem UnaryOpt.pairs (a b : UnaryOpt) (_ : a.map blank = b.map blank) :
    Pairs eq [a.token] [b.token] (a.beq eq b) := by
  cases a; cases b; exact .one _ _

theorem NaryOpt.pairs (a b : NaryOpt) (h : a.map blank = b.map blank) :
    Pairs eq [a.token] [b.token] (a.beq eq b) := by
  cases a <;> cases b <;> first | exact .one _ _ | (simp [NaryOpt.map] at h; done)

mutual

theorem Expr.pairs : (a b : Expr) → a.map blank = b.map blank → Pairs eq a.toks b.toks (a.beq eq b)
  | .binary o l an r, b, h => by
    cases b <;> simp only [Expr.map, Expr.binary.injEq, reduceCtorEq] at h
    exact (BinaryOpt.pairs _ _ h.1).append ((Expr.pairs l _ h.2.1).append
      ((Pairs.opt _ _ h.2.2.1).append (Expr.pairs r _ h.2.2.2)))
  | .unary o e, b, h => by
    cases b <;> simp only [Expr.map, Expr.unary.injEq, reduceCtorEq] at h
    exact (UnaryOpt.pairs _ _ h.1).append (Expr.pairs e _ h.2)
  | .nary o es m, b, h => by
    cases b <;> simp only [Expr.map, Expr.nary.injEq, reduceCtorEq] at h
    exact (NaryOpt.pairs _ _ h.1).append ((pairs_operands es _ h.2.1).append (Pairs.opt _ _ h.2.2))
  | .value v, b, h => by
    cases b <;> simp only [Expr.map, Expr.value.injEq, reduceCtorEq] at h
    exact ExprValue.pairs _ _ h

theorem pairs_operands : (a b : List Operand) → mapOperands blank a = mapOperands blank b →
    Pairs eq (toksOperands a) (toksOperands b) (eqOperands eq a b)
  | [], [], _ => .nil
  | [], .mk _ _ :: _, h => by simp [mapOperands] at h
  | .mk _ _ :: _, [], h => by simp [mapOperands] at h
  | .mk e an :: es, .mk e' an' :: es', h => by
    simp only [mapOperands, List.cons.injEq, Operand.mk.injEq] at h
    exact (Expr.pairs e _ h.1.1).append ((Pairs.opt _ _ h.1.2).append (pairs_operands es _ h.2))

end

theorem ASTError.pairs (a b : ASTError) (h : a.map blank = b.map blank) : Pairs eq a.toks b.toks (a.beq eq b) := by
  cases a <;> cases b <;> simp only [ASTError.map, ASTError.tooManyTokens.injEq, reduceCtorEq] at h <;>
    first
    | exact .one _ _
    | exact .tokens _ _ h
    | (rename_i x y; cases x <;> cases y <;>
        first
        | exact .one _ _
        | (simp [IHasAError.map, VariableAssignmentError.map, ORlyError.map, ImInYrError.map, IIzError.map] at h; done))

theorem IHasAInitialValue.pairs (a b : IHasAInitialValue) (h : a.map blank = b.map blank) :
    Pairs eq a.toks b.toks (a.beq eq b) := by
  cases a <;> cases b <;>
    simp only [IHasAInitialValue.map, IHasAInitialValue.expression.injEq, IHasAInitialValue.type.injEq,
      reduceCtorEq] at h
  · exact Expr.pairs _ _ h
  · exact ASTType.pairs _ _ h

theorem LoopOperation.pairs (a b : LoopOperation) (h : a.map blank = b.map blank) :
    Pairs eq [a.token] [b.token] (a.beq eq b) := by
  cases a <;> cases b <;> first | exact .one _ _ | (simp [LoopOperation.map] at h; done)

theorem LoopCondition.pairs (a b : LoopCondition) (h : a.map blank = b.map blank) :
    Pairs eq a.toks b.toks (a.beq eq b) := by
  cases a <;> cases b <;>
    simp only [LoopCondition.map, LoopCondition.til.injEq, LoopCondition.wile.injEq, reduceCtorEq] at h <;>
    exact Expr.pairs _ _ h

theorem LoopIterationOperation.pairs (a b : LoopIterationOperation) (h : a.map blank = b.map blank) :
    Pairs eq a.toks b.toks (a.beq eq b) := by
  simp only [LoopIterationOperation.map, LoopIterationOperation.mk.injEq] at h
  exact (LoopOperation.pairs _ _ h.1).append (VariableAccess.pairs _ _ h.2)

mutual

theorem Node.pairs : (a b : Node) → a.map blank = b.map blank → Pairs eq a.toks b.toks (a.beq eq b)
  | .iHasA n, b, h => by
    cases b <;> simp only [Node.map, IHasA.map, Node.iHasA.injEq, IHasA.mk.injEq, reduceCtorEq] at h
    simp only [Node.toks, Node.beq, IHasA.beq]
    exact .cons _ _ ((Identifier.pairs _ _ h.2.1).append (.optMap IHasAInitialValue.pairs _ _ h.2.2))
  | .hai n, b, h => by
    cases b <;> simp only [Node.map, Hai.map, Node.hai.injEq, Hai.mk.injEq, reduceCtorEq] at h
    simp only [Node.toks, Node.beq, Hai.beq]
    exact .cons _ _ (.tokens _ _ h.2)
  | .imInYr t l o c b e, y, h => by
    cases y <;> simp only [Node.map, Node.imInYr.injEq, reduceCtorEq] at h
    simp only [Node.toks, Node.beq]
    exact .cons _ _ (.cons _ _ ((Pairs.optMap LoopIterationOperation.pairs _ _ h.2.2.1).append
      ((Pairs.optMap LoopCondition.pairs _ _ h.2.2.2.1).append ((pairs_block b _ h.2.2.2.2.1).append (.one _ _)))))
  | .bukkitSetSlot n, b, h => by
    cases b <;> simp only [Node.map, BukkitSetSlot.map, Node.bukkitSetSlot.injEq, BukkitSetSlot.mk.injEq,
      reduceCtorEq] at h
    simp only [Node.toks, Node.beq, BukkitSetSlot.beq]
    exact (VariableAccess.pairs _ _ h.1).append ((Identifier.pairs _ _ h.2.1).append (Expr.pairs _ _ h.2.2))
  | .variableAssignment n, b, h => by
    cases b <;> simp only [Node.map, VariableAssignment.map, Node.variableAssignment.injEq,
      VariableAssignment.mk.injEq, reduceCtorEq] at h
    simp only [Node.toks, Node.beq, VariableAssignment.beq]
    exact ((VariableAccess.pairs _ _ h.1).append (.cons _ _ (Expr.pairs _ _ h.2.1))).of_eq
      (congrArg _ (Bool.and_comm ..))
  | .visible n, b, h => by
    cases b <;> simp only [Node.map, Visible.map, Node.visible.injEq, Visible.mk.injEq, reduceCtorEq] at h
    simp only [Node.toks, Node.beq, Visible.beq]
    exact .cons _ _ ((Pairs.list Expr.pairs _ _ h.2.1).append (.opt _ _ h.2.2))
  | .foundYr n, b, h => by
    cases b <;> simp only [Node.map, FoundYr.map, Node.foundYr.injEq, FoundYr.mk.injEq, reduceCtorEq] at h
    simp only [Node.toks, Node.beq, FoundYr.beq]
    exact .cons _ _ (Expr.pairs _ _ h.2)
  | .wtf t o w, b, h => by
    cases b <;> simp only [Node.map, Node.wtf.injEq, reduceCtorEq] at h
    simp only [Node.toks, Node.beq]
    exact .cons _ _ ((pairs_omgs o _ h.2.1).append (pairs_omgWtf w _ h.2.2))
  | .oRly t y n m, b, h => by
    cases b <;> simp only [Node.map, Node.oRly.injEq, reduceCtorEq] at h
    simp only [Node.toks, Node.beq]
    exact .cons _ _ (((pairs_yaRly y _ h.2.1).append ((pairs_mebbes m _ h.2.2.2).append
      (pairs_noWai n _ h.2.2.1))).of_eq (congrArg _ (Bool.and_comm ..)))
  | .iIz n, b, h => by
    cases b <;> simp only [Node.map, IIz.map, Node.iIz.injEq, IIz.mk.injEq, reduceCtorEq] at h
    simp only [Node.toks, Node.beq, IIz.beq]
    exact .cons _ _ ((VariableAccess.pairs _ _ h.2.1).append (.list Expr.pairs _ _ h.2.2))
  | .howIzI t n p b, y, h => by
    cases y <;> simp only [Node.map, Node.howIzI.injEq, reduceCtorEq] at h
    simp only [Node.toks, Node.beq]
    exact .cons _ _ ((Identifier.pairs _ _ h.2.1).append ((Pairs.list Identifier.pairs _ _ h.2.2.1).append
      (pairs_block b _ h.2.2.2)))
  | .gtfo t, b, h => by
    cases b <;> simp only [Node.map, reduceCtorEq] at h
    simp only [Node.toks, Node.beq]
    exact .one _ _
  | .gimmeh n, b, h => by
    cases b <;> simp only [Node.map, Gimmeh.map, Node.gimmeh.injEq, Gimmeh.mk.injEq, reduceCtorEq] at h
    simp only [Node.toks, Node.beq, Gimmeh.beq]
    exact .cons _ _ (VariableAccess.pairs _ _ h.2)
  | .expression e, b, h => by
    cases b <;> simp only [Node.map, Node.expression.injEq, reduceCtorEq] at h
    simp only [Node.toks, Node.beq]
    exact Expr.pairs _ _ h
  | .astError e, b, h => by
    cases b <;> simp only [Node.map, Node.astError.injEq, reduceCtorEq] at h
    simp only [Node.toks, Node.beq]
    exact ASTError.pairs _ _ h
  | .kThxBye t, b, h => by
    cases b <;> simp only [Node.map, reduceCtorEq] at h
    simp only [Node.toks, Node.beq]
    exact .one _ _

theorem pairs_omgs : (a b : List WtfOmg) → mapOmgs blank a = mapOmgs blank b →
    Pairs eq (toksOmgs a) (toksOmgs b) (eqOmgs eq a b)
  | [], [], _ => by simp only [toksOmgs, eqOmgs]; exact .nil
  | [], .mk _ _ _ :: _, h => by simp [mapOmgs] at h
  | .mk _ _ _ :: _, [], h => by simp [mapOmgs] at h
  | .mk t e b :: r, .mk t' e' b' :: r', h => by
    simp only [mapOmgs, List.cons.injEq, WtfOmg.mk.injEq] at h
    simp only [toksOmgs, eqOmgs]
    exact .cons _ _ ((Expr.pairs _ _ h.1.2.1).append ((pairs_block b _ h.1.2.2).append (pairs_omgs r _ h.2)))

theorem pairs_omgWtf : (a b : Option WtfOmgWtf) → mapOmgWtf blank a = mapOmgWtf blank b →
    Pairs eq (toksOmgWtf a) (toksOmgWtf b) (eqOmgWtf eq a b)
  | none, none, _ => by simp only [toksOmgWtf, eqOmgWtf]; exact .nil
  | none, some (.mk _ _), h => by simp [mapOmgWtf] at h
  | some (.mk _ _), none, h => by simp [mapOmgWtf] at h
  | some (.mk t b), some (.mk t' b'), h => by
    simp only [mapOmgWtf, Option.some.injEq, WtfOmgWtf.mk.injEq] at h
    simp only [toksOmgWtf, eqOmgWtf]
    exact .cons _ _ (pairs_block b _ h.2)

theorem pairs_yaRly : (a b : Option YaRly) → mapYaRly blank a = mapYaRly blank b →
    Pairs eq (toksYaRly a) (toksYaRly b) (eqYaRly eq a b)
  | none, none, _ => by simp only [toksYaRly, eqYaRly]; exact .nil
  | none, some (.mk _ _), h => by simp [mapYaRly] at h
  | some (.mk _ _), none, h => by simp [mapYaRly] at h
  | some (.mk t b), some (.mk t' b'), h => by
    simp only [mapYaRly, Option.some.injEq, YaRly.mk.injEq] at h
    simp only [toksYaRly, eqYaRly]
    exact .cons _ _ (pairs_block b _ h.2)

theorem pairs_mebbes : (a b : List Mebbe) → mapMebbes blank a = mapMebbes blank b →
    Pairs eq (toksMebbes a) (toksMebbes b) (eqMebbes eq a b)
  | [], [], _ => by simp only [toksMebbes, eqMebbes]; exact .nil
  | [], .mk _ _ _ :: _, h => by simp [mapMebbes] at h
  | .mk _ _ _ :: _, [], h => by simp [mapMebbes] at h
  | .mk t e b :: r, .mk t' e' b' :: r', h => by
    simp only [mapMebbes, List.cons.injEq, Mebbe.mk.injEq] at h
    simp only [toksMebbes, eqMebbes]
    exact .cons _ _ ((Expr.pairs _ _ h.1.2.1).append ((pairs_block b _ h.1.2.2).append (pairs_mebbes r _ h.2)))

theorem pairs_noWai : (a b : Option NoWai) → mapNoWai blank a = mapNoWai blank b →
    Pairs eq (toksNoWai a) (toksNoWai b) (eqNoWai eq a b)
  | none, none, _ => by simp only [toksNoWai, eqNoWai]; exact .nil
  | none, some (.mk _ _), h => by simp [mapNoWai] at h
  | some (.mk _ _), none, h => by simp [mapNoWai] at h
  | some (.mk t b), some (.mk t' b'), h => by
    simp only [mapNoWai, Option.some.injEq, NoWai.mk.injEq] at h
    simp only [toksNoWai, eqNoWai]
    exact .cons _ _ (pairs_block b _ h.2)

theorem pairs_block : (a b : List Node) → mapBlock blank a = mapBlock blank b →
    Pairs eq (toksBlock a) (toksBlock b) (eqBlock eq a b)
  | [], [], _ => by simp only [toksBlock, eqBlock]; exact .nil
  | [], _ :: _, h => by simp [mapBlock] at h
  | _ :: _, [], h => by simp [mapBlock] at h
  | x :: r, y :: r', h => by
    simp only [mapBlock, List.cons.injEq] at h
    simp only [toksBlock, eqBlock]
    exact (Node.pairs x _ h.1).append (pairs_block r _ h.2)

end

theorem Pairs.iff {a b : List Token} {v : Bool} (h : Pairs eq a b v) : a.isEqv b eq = v := by
  simpa [List.isEqv] using h [] []

/-! ## If equal tokens are the same, equal values are -/

section
theorem optEq_eq {α : Type} {f : α → α → Bool} (h : ∀ a b, f a b = true → a = b) :
    (a b : Option α) → optEq f a b = true → a = b
  | none, none, _ => rfl
  | some a, some b, he => congrArg some (h a b he)

theorem isEqv_eq {α : Type} {f : α → α → Bool} (h : ∀ a b, f a b = true → a = b) :
    (a b : List α) → a.isEqv b f = true → a = b
  | [], [], _ => rfl
  | x :: a, y :: b, he => by
    simp only [List.isEqv, Bool.and_eq_true] at he
    rw [h x y he.1, isEqv_eq h a b he.2]

variable (H : ∀ a b, eq a b = true → a = b)
include H

theorem Identifier.eq_of_beq (a b : Identifier) (h : a.beq eq b = true) : a = b := by
  cases a; cases b
  simp only [Identifier.beq, Bool.and_eq_true] at h
  rw [H _ _ h.1, optEq_eq H _ _ h.2]

theorem ASTType.eq_of_beq (a b : ASTType) (h : a.beq eq b = true) : a = b := by
  cases a <;> cases b <;> simp only [ASTType.beq, Bool.false_eq_true] at h <;> rw [H _ _ h]

theorem VariableAccessSlot.eq_of_beq (a b : VariableAccessSlot) (h : a.beq eq b = true) : a = b := by
  cases a; cases b
  simp only [VariableAccessSlot.beq, Bool.and_eq_true] at h
  rw [H _ _ h.1, Identifier.eq_of_beq H _ _ h.2]

theorem VariableAccess.eq_of_beq (a b : VariableAccess) (h : a.beq eq b = true) : a = b := by
  cases a; cases b
  simp only [VariableAccess.beq, Bool.and_eq_true] at h
  rw [Identifier.eq_of_beq H _ _ h.1, isEqv_eq (VariableAccessSlot.eq_of_beq H) _ _ h.2]

theorem ExprValue.eq_of_beq (a b : ExprValue) (h : a.beq eq b = true) : a = b := by
  cases a <;> cases b <;> simp only [ExprValue.beq, Bool.false_eq_true] at h
  · rw [VariableAccess.eq_of_beq H _ _ h]
  · rw [H _ _ h]

theorem BinaryOpt.eq_of_beq (a b : BinaryOpt) (h : a.beq eq b = true) : a = b := by
  cases a <;> cases b <;> simp only [BinaryOpt.beq, Bool.false_eq_true] at h <;> rw [H _ _ h]

theorem UnaryOpt.eq_of_beq (a b : UnaryOpt) (h : a.beq eq b = true) : a = b := by
  cases a; cases b; rw [H _ _ h]

theorem NaryOpt.eq_of_beq (a b : NaryOpt) (h : a.beq eq b = true) : a = b := by
  cases a <;> cases b <;> simp only [NaryOpt.beq, Bool.false_eq_true] at h <;> rw [H _ _ h]

mutual

theorem Expr.eq_of_beq : (a b : Expr) → a.beq eq b = true → a = b
  | .binary o l an r, b, h => by
    cases b <;> simp only [Expr.beq, Bool.and_eq_true, Bool.false_eq_true] at h
    rw [BinaryOpt.eq_of_beq H _ _ h.1, Expr.eq_of_beq l _ h.2.1, optEq_eq H _ _ h.2.2.1, Expr.eq_of_beq r _ h.2.2.2]
  | .unary o e, b, h => by
    cases b <;> simp only [Expr.beq, Bool.and_eq_true, Bool.false_eq_true] at h
    rw [UnaryOpt.eq_of_beq H _ _ h.1, Expr.eq_of_beq e _ h.2]
  | .nary o es m, b, h => by
    cases b <;> simp only [Expr.beq, Bool.and_eq_true, Bool.false_eq_true] at h
    rw [NaryOpt.eq_of_beq H _ _ h.1, eq_of_eqOperands es _ h.2.1, optEq_eq H _ _ h.2.2]
  | .value v, b, h => by
    cases b <;> simp only [Expr.beq, Bool.false_eq_true] at h
    rw [ExprValue.eq_of_beq H _ _ h]

theorem eq_of_eqOperands : (a b : List Operand) → eqOperands eq a b = true → a = b
  | [], [], _ => rfl
  | [], _ :: _, h => by simp [eqOperands] at h
  | _ :: _, [], h => by simp [eqOperands] at h
  | .mk e an :: es, .mk e' an' :: es', h => by
    simp only [eqOperands, Bool.and_eq_true] at h
    rw [Expr.eq_of_beq e _ h.1, optEq_eq H _ _ h.2.1, eq_of_eqOperands es _ h.2.2]

end

theorem ASTError.eq_of_beq (a b : ASTError) (h : a.beq eq b = true) : a = b := by
  cases a <;> cases b <;> simp only [ASTError.beq, Bool.false_eq_true] at h <;>
    first
    | rw [H _ _ h]
    | rw [isEqv_eq H _ _ h]
    | (rename_i x y; cases x <;> cases y <;>
        first
        | rw [H _ _ h]
        | exact absurd h (by simp [IHasAError.beq, VariableAssignmentError.beq, ORlyError.beq, ImInYrError.beq,
            IIzError.beq]))

theorem IHasAInitialValue.eq_of_beq (a b : IHasAInitialValue) (h : a.beq eq b = true) : a = b := by
  cases a <;> cases b <;> simp only [IHasAInitialValue.beq, Bool.false_eq_true] at h
  · rw [Expr.eq_of_beq H _ _ h]
  · rw [ASTType.eq_of_beq H _ _ h]

theorem LoopOperation.eq_of_beq (a b : LoopOperation) (h : a.beq eq b = true) : a = b := by
  cases a <;> cases b <;> simp only [LoopOperation.beq, Bool.false_eq_true] at h <;> rw [H _ _ h]

theorem LoopCondition.eq_of_beq (a b : LoopCondition) (h : a.beq eq b = true) : a = b := by
  cases a <;> cases b <;> simp only [LoopCondition.beq, Bool.false_eq_true] at h <;>
    rw [Expr.eq_of_beq H _ _ h]

theorem LoopIterationOperation.eq_of_beq (a b : LoopIterationOperation) (h : a.beq eq b = true) : a = b := by
  cases a; cases b
  simp only [LoopIterationOperation.beq, Bool.and_eq_true] at h
  rw [LoopOperation.eq_of_beq H _ _ h.1, VariableAccess.eq_of_beq H _ _ h.2]

mutual

theorem Node.eq_of_beq : (a b : Node) → a.beq eq b = true → a = b
  | .iHasA ⟨_, _, _⟩, b, h => by
    cases b <;> simp only [Node.beq, IHasA.beq, Bool.and_eq_true, Bool.false_eq_true] at h
    rename_i n; cases n
    rw [H _ _ h.1, Identifier.eq_of_beq H _ _ h.2.1, optEq_eq (IHasAInitialValue.eq_of_beq H) _ _ h.2.2]
  | .hai ⟨_, _⟩, b, h => by
    cases b <;> simp only [Node.beq, Hai.beq, Bool.and_eq_true, Bool.false_eq_true] at h
    rename_i n; cases n
    rw [H _ _ h.1, isEqv_eq H _ _ h.2]
  | .imInYr t l o c b e, y, h => by
    cases y <;> simp only [Node.beq, Bool.and_eq_true, Bool.false_eq_true] at h
    rw [H _ _ h.1, H _ _ h.2.1, optEq_eq (LoopIterationOperation.eq_of_beq H) _ _ h.2.2.1,
      optEq_eq (LoopCondition.eq_of_beq H) _ _ h.2.2.2.1, eq_of_eqBlock b _ h.2.2.2.2.1, H _ _ h.2.2.2.2.2]
  | .bukkitSetSlot ⟨_, _, _⟩, b, h => by
    cases b <;> simp only [Node.beq, BukkitSetSlot.beq, Bool.and_eq_true, Bool.false_eq_true] at h
    rename_i n; cases n
    rw [VariableAccess.eq_of_beq H _ _ h.1, Identifier.eq_of_beq H _ _ h.2.1, Expr.eq_of_beq H _ _ h.2.2]
  | .variableAssignment ⟨_, _, _⟩, b, h => by
    cases b <;> simp only [Node.beq, VariableAssignment.beq, Bool.and_eq_true, Bool.false_eq_true] at h
    rename_i n; cases n
    rw [VariableAccess.eq_of_beq H _ _ h.1, Expr.eq_of_beq H _ _ h.2.1, H _ _ h.2.2]
  | .visible ⟨_, _, _⟩, b, h => by
    cases b <;> simp only [Node.beq, Visible.beq, Bool.and_eq_true, Bool.false_eq_true] at h
    rename_i n; cases n
    rw [H _ _ h.1, isEqv_eq (Expr.eq_of_beq H) _ _ h.2.1, optEq_eq H _ _ h.2.2]
  | .foundYr ⟨_, _⟩, b, h => by
    cases b <;> simp only [Node.beq, FoundYr.beq, Bool.and_eq_true, Bool.false_eq_true] at h
    rename_i n; cases n
    rw [H _ _ h.1, Expr.eq_of_beq H _ _ h.2]
  | .wtf t o w, b, h => by
    cases b <;> simp only [Node.beq, Bool.and_eq_true, Bool.false_eq_true] at h
    rw [H _ _ h.1, eq_of_eqOmgs o _ h.2.1, eq_of_eqOmgWtf w _ h.2.2]
  | .oRly t y n m, b, h => by
    cases b <;> simp only [Node.beq, Bool.and_eq_true, Bool.false_eq_true] at h
    rw [H _ _ h.1, eq_of_eqYaRly y _ h.2.1, eq_of_eqNoWai n _ h.2.2.1, eq_of_eqMebbes m _ h.2.2.2]
  | .iIz ⟨_, _, _⟩, b, h => by
    cases b <;> simp only [Node.beq, IIz.beq, Bool.and_eq_true, Bool.false_eq_true] at h
    rename_i n; cases n
    rw [H _ _ h.1, VariableAccess.eq_of_beq H _ _ h.2.1, isEqv_eq (Expr.eq_of_beq H) _ _ h.2.2]
  | .howIzI t n p b, y, h => by
    cases y <;> simp only [Node.beq, Bool.and_eq_true, Bool.false_eq_true] at h
    rw [H _ _ h.1, Identifier.eq_of_beq H _ _ h.2.1, isEqv_eq (Identifier.eq_of_beq H) _ _ h.2.2.1,
      eq_of_eqBlock b _ h.2.2.2]
  | .gtfo t, b, h => by
    cases b <;> simp only [Node.beq, Bool.false_eq_true] at h
    rw [H _ _ h]
  | .gimmeh ⟨_, _⟩, b, h => by
    cases b <;> simp only [Node.beq, Gimmeh.beq, Bool.and_eq_true, Bool.false_eq_true] at h
    rename_i n; cases n
    rw [H _ _ h.1, VariableAccess.eq_of_beq H _ _ h.2]
  | .expression e, b, h => by
    cases b <;> simp only [Node.beq, Bool.false_eq_true] at h
    rw [Expr.eq_of_beq H _ _ h]
  | .astError e, b, h => by
    cases b <;> simp only [Node.beq, Bool.false_eq_true] at h
    rw [ASTError.eq_of_beq H _ _ h]
  | .kThxBye t, b, h => by
    cases b <;> simp only [Node.beq, Bool.false_eq_true] at h
    rw [H _ _ h]

theorem eq_of_eqOmgs : (a b : List WtfOmg) → eqOmgs eq a b = true → a = b
  | [], [], _ => rfl
  | [], _ :: _, h => by simp [eqOmgs] at h
  | _ :: _, [], h => by simp [eqOmgs] at h
  | .mk t e b :: r, .mk t' e' b' :: r', h => by
    simp only [eqOmgs, Bool.and_eq_true] at h
    rw [H _ _ h.1, Expr.eq_of_beq H _ _ h.2.1, eq_of_eqBlock b _ h.2.2.1, eq_of_eqOmgs r _ h.2.2.2]

theorem eq_of_eqMebbes : (a b : List Mebbe) → eqMebbes eq a b = true → a = b
  | [], [], _ => rfl
  | [], _ :: _, h => by simp [eqMebbes] at h
  | _ :: _, [], h => by simp [eqMebbes] at h
  | .mk t e b :: r, .mk t' e' b' :: r', h => by
    simp only [eqMebbes, Bool.and_eq_true] at h
    rw [H _ _ h.1, Expr.eq_of_beq H _ _ h.2.1, eq_of_eqBlock b _ h.2.2.1, eq_of_eqMebbes r _ h.2.2.2]

theorem eq_of_eqOmgWtf : (a b : Option WtfOmgWtf) → eqOmgWtf eq a b = true → a = b
  | none, none, _ => rfl
  | none, some _, h => by simp [eqOmgWtf] at h
  | some _, none, h => by simp [eqOmgWtf] at h
  | some (.mk t b), some (.mk t' b'), h => by
    simp only [eqOmgWtf, Bool.and_eq_true] at h
    rw [H _ _ h.1, eq_of_eqBlock b _ h.2]

theorem eq_of_eqYaRly : (a b : Option YaRly) → eqYaRly eq a b = true → a = b
  | none, none, _ => rfl
  | none, some _, h => by simp [eqYaRly] at h
  | some _, none, h => by simp [eqYaRly] at h
  | some (.mk t b), some (.mk t' b'), h => by
    simp only [eqYaRly, Bool.and_eq_true] at h
    rw [H _ _ h.1, eq_of_eqBlock b _ h.2]

theorem eq_of_eqNoWai : (a b : Option NoWai) → eqNoWai eq a b = true → a = b
  | none, none, _ => rfl
  | none, some _, h => by simp [eqNoWai] at h
  | some _, none, h => by simp [eqNoWai] at h
  | some (.mk t b), some (.mk t' b'), h => by
    simp only [eqNoWai, Bool.and_eq_true] at h
    rw [H _ _ h.1, eq_of_eqBlock b _ h.2]

theorem eq_of_eqBlock : (a b : List Node) → eqBlock eq a b = true → a = b
  | [], [], _ => rfl
  | [], _ :: _, h => by simp [eqBlock] at h
  | _ :: _, [], h => by simp [eqBlock] at h
  | x :: r, y :: r', h => by
    simp only [eqBlock, Bool.and_eq_true] at h
    rw [Node.eq_of_beq x _ h.1, eq_of_eqBlock r _ h.2]

end

end

end

end Lol
