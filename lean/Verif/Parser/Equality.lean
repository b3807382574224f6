import Verif.Parser.Ast
import Verif.Lexer.Equality

/-!
# Equality of syntax trees: the derived `PartialEq` of the types of `src/parser`

All types of the tree derive `PartialEq`: two values are equal when they are made by the same variant and their fields
are equal one by one. The only comparison that is not of this kind is the one of tokens, so it is the parameter `eq`
(`Token::eq`, derived at `src/lexer/token.rs:65-71`; modelled as `Token.eq` in `Verif/Lexer/Equality.lean`).
`Box` compares what it holds, `Vec` and `VecDeque` compare element by element after the length.
-/

namespace Lol

/-- `PartialEq` of `Option` (library), used by the derived comparisons -/
def optEq {α : Type} (eq : α → α → Bool) : Option α → Option α → Bool
  | none, none => true
  | some a, some b => eq a b
  | _, _ => false

variable (eq : Token → Token → Bool)

/-- `Identifier`, `src/parser/expression/identifier.rs:7-13` -/
def Identifier.beq (a b : Identifier) : Bool := eq a.name b.name && optEq eq a.srs b.srs

/-- `ASTType`, `src/parser/expression/identifier.rs:59-73` -/
def ASTType.beq : ASTType → ASTType → Bool
  | .bukkit a, .bukkit b => eq a b
  | .numbr a, .numbr b => eq a b
  | .numbar a, .numbar b => eq a b
  | .yarn a, .yarn b => eq a b
  | .troof a, .troof b => eq a b
  | .noob a, .noob b => eq a b
  | _, _ => false

/-- `VariableAccessSlot`, `src/parser/expression/variable_access.rs:12-16` -/
def VariableAccessSlot.beq (a b : VariableAccessSlot) : Bool :=
  eq a.slotAccessToken b.slotAccessToken && a.identifier.beq eq b.identifier

/-- `VariableAccess`, `src/parser/expression/variable_access.rs:32-39` -/
def VariableAccess.beq (a b : VariableAccess) : Bool :=
  a.identifier.beq eq b.identifier && a.accesses.isEqv b.accesses (VariableAccessSlot.beq eq)

/-- `ASTExpressionValue`, `src/parser/expression/mod.rs:83-90` -/
def ExprValue.beq : ExprValue → ExprValue → Bool
  | .variableAccess a, .variableAccess b => a.beq eq b
  | .literal a, .literal b => eq a b
  | _, _ => false

/-- `BinaryOpt`, `src/parser/expression/binary_operation.rs:10-73` -/
def BinaryOpt.beq : BinaryOpt → BinaryOpt → Bool
  | .eitherOf a, .eitherOf b => eq a b
  | .wonOf a, .wonOf b => eq a b
  | .sumOf a, .sumOf b => eq a b
  | .diffOf a, .diffOf b => eq a b
  | .produktOf a, .produktOf b => eq a b
  | .quoshuntOf a, .quoshuntOf b => eq a b
  | .modOf a, .modOf b => eq a b
  | .biggrOf a, .biggrOf b => eq a b
  | .smallrOf a, .smallrOf b => eq a b
  | .bothSaem a, .bothSaem b => eq a b
  | .bothOf a, .bothOf b => eq a b
  | .diffrint a, .diffrint b => eq a b
  | _, _ => false

/-- `UnaryOpt`, `src/parser/expression/unary_operation.rs:7-14` -/
def UnaryOpt.beq : UnaryOpt → UnaryOpt → Bool
  | .not a, .not b => eq a b

/-- `NaryOpt`, `src/parser/expression/nary_operations.rs:10-27` -/
def NaryOpt.beq : NaryOpt → NaryOpt → Bool
  | .allOf a, .allOf b => eq a b
  | .smoosh a, .smoosh b => eq a b
  | .anyOf a, .anyOf b => eq a b
  | _, _ => false

mutual

/-- `ASTExpression`, `src/parser/expression/mod.rs:193-203`, with `BinaryOperation`
(`src/parser/expression/binary_operation.rs:169-175`), `UnaryOperation`
(`src/parser/expression/unary_operation.rs:77-81`) and `NaryOperation`
(`src/parser/expression/nary_operations.rs:160-165`) -/
def Expr.beq : Expr → Expr → Bool
  | .binary o l an r, .binary o' l' an' r' => o.beq eq o' && (l.beq l' && (optEq eq an an' && r.beq r'))
  | .unary o e, .unary o' e' => o.beq eq o' && e.beq e'
  | .nary o es m, .nary o' es' m' => o.beq eq o' && (eqOperands es es' && optEq eq m m')
  | .value v, .value v' => v.beq eq v'
  | _, _ => false

/-- `Vec<NaryOperationOperand>`, `src/parser/expression/nary_operations.rs:147-151` -/
def eqOperands : List Operand → List Operand → Bool
  | [], [] => true
  | .mk e an :: es, .mk e' an' :: es' => e.beq e' && (optEq eq an an' && eqOperands es es')
  | _, _ => false

end

/-- `ExpressionError`, `src/parser/expression/mod.rs:272-276` -/
def ExpressionError.beq : ExpressionError → ExpressionError → Bool
  | .missingOperands a, .missingOperands b => eq a b

/-- `VariableAssignmentError`, `src/parser/statements/assignment.rs:96-108` -/
def VariableAssignmentError.beq : VariableAssignmentError → VariableAssignmentError → Bool
  | .missingR a, .missingR b => eq a b
  | .expectedValue a, .expectedValue b => eq a b
  | _, _ => false

/-- `HowIsIError`, `src/parser/statements/how_is_i.rs:22-26` -/
def HowIsIError.beq : HowIsIError → HowIsIError → Bool
  | .missingNameIdentifier a, .missingNameIdentifier b => eq a b

/-- `IHasAError`, `src/parser/statements/i_has_a.rs:18-27` -/
def IHasAError.beq : IHasAError → IHasAError → Bool
  | .invalidIdentifier a, .invalidIdentifier b => eq a b
  | .missingIdentifier a, .missingIdentifier b => eq a b
  | .expectedInitialValue a, .expectedInitialValue b => eq a b
  | _, _ => false

/-- `IIzError`, `src/parser/statements/i_is.rs:22-39` -/
def IIzError.beq : IIzError → IIzError → Bool
  | .missingName a, .missingName b => eq a b
  | .missingArgument a, .missingArgument b => eq a b
  | .missingMkay a, .missingMkay b => eq a b
  | _, _ => false

/-- `ImInYrError`, `src/parser/statements/im_in_yr.rs:10-62` -/
def ImInYrError.beq : ImInYrError → ImInYrError → Bool
  | .missingYr a, .missingYr b => eq a b
  | .missingStartLabel a, .missingStartLabel b => eq a b
  | .invalidStartLabel a, .invalidStartLabel b => eq a b
  | .missingEndLabel a, .missingEndLabel b => eq a b
  | .invalidEndLabel a, .invalidEndLabel b => eq a b
  | .missingImOuttaYr a, .missingImOuttaYr b => eq a b
  | .invalidOperation a, .invalidOperation b => eq a b
  | .missingOperand a, .missingOperand b => eq a b
  | .invalidConditional a, .invalidConditional b => eq a b
  | .missingConditionalExpression a, .missingConditionalExpression b => eq a b
  | _, _ => false

/-- `ORlyError`, `src/parser/statements/o_rly.rs:43-49` -/
def ORlyError.beq : ORlyError → ORlyError → Bool
  | .missingQuestionMark a, .missingQuestionMark b => eq a b
  | .missingMebbeExpression a, .missingMebbeExpression b => eq a b
  | _, _ => false

/-- `ASTErrorType`, `src/parser/error.rs:13-37` -/
def ASTError.beq : ASTError → ASTError → Bool
  | .unexpectedToken a, .unexpectedToken b => eq a b
  | .tooManyTokens a, .tooManyTokens b => a.isEqv b eq
  | .iHasA a, .iHasA b => a.beq eq b
  | .variableAssignment a, .variableAssignment b => a.beq eq b
  | .expression a, .expression b => a.beq eq b
  | .missingToken a, .missingToken b => eq a b
  | .oRly a, .oRly b => a.beq eq b
  | .missingBlockClosingToken a, .missingBlockClosingToken b => eq a b
  | .howIsI a, .howIsI b => a.beq eq b
  | .imInYr a, .imInYr b => a.beq eq b
  | .iIz a, .iIz b => a.beq eq b
  | _, _ => false

/-- `IHasAInitialValue`, `src/parser/statements/i_has_a.rs:9-15` -/
def IHasAInitialValue.beq : IHasAInitialValue → IHasAInitialValue → Bool
  | .expression a, .expression b => a.beq eq b
  | .type a, .type b => a.beq eq b
  | _, _ => false

/-- `IHasA`, `src/parser/statements/i_has_a.rs:30-37` -/
def IHasA.beq (a b : IHasA) : Bool :=
  eq a.iHasAToken b.iHasAToken &&
    (a.identifier.beq eq b.identifier && optEq (IHasAInitialValue.beq eq) a.initialValue b.initialValue)

/-- `Hai`, `src/parser/statements/hai.rs:8-12` -/
def Hai.beq (a b : Hai) : Bool := eq a.haiToken b.haiToken && a.version.isEqv b.version eq

/-- `BukkitSetSlot`, `src/parser/statements/bukkit_set_slot.rs:11-19` -/
def BukkitSetSlot.beq (a b : BukkitSetSlot) : Bool :=
  a.bukkit.beq eq b.bukkit && (a.slotName.beq eq b.slotName && a.value.beq eq b.value)

/-- `VariableAssignment`, `src/parser/statements/assignment.rs:69-77` -/
def VariableAssignment.beq (a b : VariableAssignment) : Bool :=
  a.variableAccess.beq eq b.variableAccess && (a.expression.beq eq b.expression && eq a.rToken b.rToken)

/-- `Visible`, `src/parser/statements/visible.rs:10-15` -/
def Visible.beq (a b : Visible) : Bool :=
  eq a.visibleToken b.visibleToken &&
    (a.expressions.isEqv b.expressions (Expr.beq eq) && optEq eq a.exclamationMark b.exclamationMark)

/-- `FoundYr`, `src/parser/statements/found_yr.rs:15-19` -/
def FoundYr.beq (a b : FoundYr) : Bool := eq a.foundYrToken b.foundYrToken && a.expression.beq eq b.expression

/-- `IIz`, `src/parser/statements/i_is.rs:10-19` -/
def IIz.beq (a b : IIz) : Bool :=
  eq a.iIzToken b.iIzToken && (a.name.beq eq b.name && a.arguments.isEqv b.arguments (Expr.beq eq))

/-- `Gimmeh`, `src/parser/statements/gimmeh.rs:12-16` -/
def Gimmeh.beq (a b : Gimmeh) : Bool :=
  eq a.gimmehToken b.gimmehToken && a.variableAccess.beq eq b.variableAccess

/-- `LoopOperation`, `src/parser/statements/im_in_yr.rs:64-71` -/
def LoopOperation.beq : LoopOperation → LoopOperation → Bool
  | .uppin a, .uppin b => eq a b
  | .nerfin a, .nerfin b => eq a b
  | _, _ => false

/-- `LoopCondition`, `src/parser/statements/im_in_yr.rs:83-89` -/
def LoopCondition.beq : LoopCondition → LoopCondition → Bool
  | .til a, .til b => a.beq eq b
  | .wile a, .wile b => a.beq eq b
  | _, _ => false

/-- `LoopIterationOperation`, `src/parser/statements/im_in_yr.rs:91-98` -/
def LoopIterationOperation.beq (a b : LoopIterationOperation) : Bool :=
  a.operation.beq eq b.operation && a.operand.beq eq b.operand

mutual

/-- `Node`, `src/parser/statements/mod.rs:91-109`, with `ImInYr` (`src/parser/statements/im_in_yr.rs:126-139`), `Wtf`
(`src/parser/statements/wtf.rs:25-32`), `ORly` (`src/parser/statements/o_rly.rs:29-40`), `HowIzI`
(`src/parser/statements/how_is_i.rs:10-19`), `Gtfo` (`src/parser/statements/gtfo.rs:20-23`) and `KThxBye`
(`src/parser/statements/kthxbye.rs:4-7`) -/
def Node.beq : Node → Node → Bool
  | .iHasA a, .iHasA b => a.beq eq b
  | .hai a, .hai b => a.beq eq b
  | .imInYr t l o c b e, .imInYr t' l' o' c' b' e' =>
    eq t t' && (eq l l' && (optEq (LoopIterationOperation.beq eq) o o' &&
      (optEq (LoopCondition.beq eq) c c' && (eqBlock b b' && eq e e'))))
  | .bukkitSetSlot a, .bukkitSetSlot b => a.beq eq b
  | .variableAssignment a, .variableAssignment b => a.beq eq b
  | .visible a, .visible b => a.beq eq b
  | .foundYr a, .foundYr b => a.beq eq b
  | .wtf t o w, .wtf t' o' w' => eq t t' && (eqOmgs o o' && eqOmgWtf w w')
  | .oRly t y n m, .oRly t' y' n' m' => eq t t' && (eqYaRly y y' && (eqNoWai n n' && eqMebbes m m'))
  | .iIz a, .iIz b => a.beq eq b
  | .howIzI t n p b, .howIzI t' n' p' b' =>
    eq t t' && (n.beq eq n' && (p.isEqv p' (Identifier.beq eq) && eqBlock b b'))
  | .gtfo a, .gtfo b => eq a b
  | .gimmeh a, .gimmeh b => a.beq eq b
  | .expression a, .expression b => a.beq eq b
  | .astError a, .astError b => a.beq eq b
  | .kThxBye a, .kThxBye b => eq a b
  | _, _ => false

/-- `VecDeque<WtfOmg>`, `src/parser/statements/wtf.rs:11-16` -/
def eqOmgs : List WtfOmg → List WtfOmg → Bool
  | [], [] => true
  | .mk t e b :: r, .mk t' e' b' :: r' => eq t t' && (e.beq eq e' && (eqBlock b b' && eqOmgs r r'))
  | _, _ => false

/-- `Option<WtfOmgWtf>`, `src/parser/statements/wtf.rs:18-22` -/
def eqOmgWtf : Option WtfOmgWtf → Option WtfOmgWtf → Bool
  | none, none => true
  | some (.mk t b), some (.mk t' b') => eq t t' && eqBlock b b'
  | _, _ => false

/-- `Option<YaRly>`, `src/parser/statements/o_rly.rs:9-13` -/
def eqYaRly : Option YaRly → Option YaRly → Bool
  | none, none => true
  | some (.mk t b), some (.mk t' b') => eq t t' && eqBlock b b'
  | _, _ => false

/-- `VecDeque<Mebbe>`, `src/parser/statements/o_rly.rs:21-26` -/
def eqMebbes : List Mebbe → List Mebbe → Bool
  | [], [] => true
  | .mk t e b :: r, .mk t' e' b' :: r' => eq t t' && (e.beq eq e' && (eqBlock b b' && eqMebbes r r'))
  | _, _ => false

/-- `Option<NoWai>`, `src/parser/statements/o_rly.rs:15-19` -/
def eqNoWai : Option NoWai → Option NoWai → Bool
  | none, none => true
  | some (.mk t b), some (.mk t' b') => eq t t' && eqBlock b b'
  | _, _ => false

/-- `ASTBlock`, `src/parser/blocks.rs:16-17`: a `VecDeque<Node>` -/
def eqBlock : List Node → List Node → Bool
  | [], [] => true
  | x :: r, y :: r' => x.beq y && eqBlock r r'
  | _, _ => false

end

end Lol
