import Verif.Parser.Ast

/-!
# Replacing the tokens of a syntax tree (specification)

`x.map f` is the tree `x` with every token `t` replaced by `f t`, and `TokenType.kind` is what the parser may look at in
a token: neither the name of an identifier nor the value of a literal nor the text of a comment.
-/

namespace Lol

/-- A token type without the name of an identifier, the value of a literal, the text of a comment and the character of
a symbol other than `?`. -/
def TokenType.kind : TokenType → TokenType
  | .identifier _ => .identifier []
  | .value _ => .value (.boolean true)
  | .commentSingleLine _ => .commentSingleLine []
  | .commentMultiLine _ => .commentMultiLine []
  | .symbol s => if s = ['?'] then .symbol ['?'] else .symbol []
  | .keyword k => .keyword k
  | .bukkitSlotAccess => .bukkitSlotAccess
  | .ellipsis => .ellipsis
  | .comma => .comma
  | .exclamationMark => .exclamationMark
  | .questionMark => .questionMark

/-- Replace the tokens of an identifier. -/
def Identifier.map (f : Token → Token) (i : Identifier) : Identifier := ⟨f i.name, i.srs.map f⟩

/-- Replace the token of a type. -/
def ASTType.map (f : Token → Token) : ASTType → ASTType
  | .bukkit t => .bukkit (f t)
  | .numbr t => .numbr (f t)
  | .numbar t => .numbar (f t)
  | .yarn t => .yarn (f t)
  | .troof t => .troof (f t)
  | .noob t => .noob (f t)

/-- Replace the tokens of a slot access. -/
def VariableAccessSlot.map (f : Token → Token) (s : VariableAccessSlot) : VariableAccessSlot :=
  ⟨f s.slotAccessToken, s.identifier.map f⟩

/-- Replace the tokens of a variable access. -/
def VariableAccess.map (f : Token → Token) (v : VariableAccess) : VariableAccess :=
  ⟨v.identifier.map f, v.accesses.map (·.map f)⟩

/-- Replace the tokens of a variable access or literal. -/
def ExprValue.map (f : Token → Token) : ExprValue → ExprValue
  | .variableAccess v => .variableAccess (v.map f)
  | .literal t => .literal (f t)

/-- Replace the token of a binary operator. -/
def BinaryOpt.map (f : Token → Token) : BinaryOpt → BinaryOpt
  | .eitherOf t => .eitherOf (f t)
  | .wonOf t => .wonOf (f t)
  | .sumOf t => .sumOf (f t)
  | .diffOf t => .diffOf (f t)
  | .produktOf t => .produktOf (f t)
  | .quoshuntOf t => .quoshuntOf (f t)
  | .modOf t => .modOf (f t)
  | .biggrOf t => .biggrOf (f t)
  | .smallrOf t => .smallrOf (f t)
  | .bothSaem t => .bothSaem (f t)
  | .bothOf t => .bothOf (f t)
  | .diffrint t => .diffrint (f t)

/-- Replace the token of a unary operator. -/
def UnaryOpt.map (f : Token → Token) : UnaryOpt → UnaryOpt
  | .not t => .not (f t)

/-- Replace the token of an operator with any number of operands. -/
def NaryOpt.map (f : Token → Token) : NaryOpt → NaryOpt
  | .allOf t => .allOf (f t)
  | .smoosh t => .smoosh (f t)
  | .anyOf t => .anyOf (f t)

mutual

/-- Replace the tokens of an expression. -/
def Expr.map (f : Token → Token) : Expr → Expr
  | .binary o l an r => .binary (o.map f) (l.map f) (an.map f) (r.map f)
  | .unary o e => .unary (o.map f) (e.map f)
  | .nary o es mkay => .nary (o.map f) (mapOperands f es) (mkay.map f)
  | .value v => .value (v.map f)

/-- Replace the tokens of operands. -/
def mapOperands (f : Token → Token) : List Operand → List Operand
  | [] => []
  | .mk e an :: rest => .mk (e.map f) (an.map f) :: mapOperands f rest

end

/-- Replace the token of an error. -/
def ExpressionError.map (f : Token → Token) : ExpressionError → ExpressionError
  | .missingOperands t => .missingOperands (f t)

/-- Replace the token of an error. -/
def VariableAssignmentError.map (f : Token → Token) : VariableAssignmentError → VariableAssignmentError
  | .missingR t => .missingR (f t)
  | .expectedValue t => .expectedValue (f t)

/-- Replace the token of an error. -/
def HowIsIError.map (f : Token → Token) : HowIsIError → HowIsIError
  | .missingNameIdentifier t => .missingNameIdentifier (f t)

/-- Replace the token of an error. -/
def IHasAError.map (f : Token → Token) : IHasAError → IHasAError
  | .invalidIdentifier t => .invalidIdentifier (f t)
  | .missingIdentifier t => .missingIdentifier (f t)
  | .expectedInitialValue t => .expectedInitialValue (f t)

/-- Replace the token of an error. -/
def IIzError.map (f : Token → Token) : IIzError → IIzError
  | .missingName t => .missingName (f t)
  | .missingArgument t => .missingArgument (f t)
  | .missingMkay t => .missingMkay (f t)

/-- Replace the token of an error. -/
def ImInYrError.map (f : Token → Token) : ImInYrError → ImInYrError
  | .missingYr t => .missingYr (f t)
  | .missingStartLabel t => .missingStartLabel (f t)
  | .invalidStartLabel t => .invalidStartLabel (f t)
  | .missingEndLabel t => .missingEndLabel (f t)
  | .invalidEndLabel t => .invalidEndLabel (f t)
  | .missingImOuttaYr t => .missingImOuttaYr (f t)
  | .invalidOperation t => .invalidOperation (f t)
  | .missingOperand t => .missingOperand (f t)
  | .invalidConditional t => .invalidConditional (f t)
  | .missingConditionalExpression t => .missingConditionalExpression (f t)

/-- Replace the token of an error. -/
def ORlyError.map (f : Token → Token) : ORlyError → ORlyError
  | .missingQuestionMark t => .missingQuestionMark (f t)
  | .missingMebbeExpression t => .missingMebbeExpression (f t)

/-- Replace the tokens of an error. -/
def ASTError.map (f : Token → Token) : ASTError → ASTError
  | .unexpectedToken t => .unexpectedToken (f t)
  | .tooManyTokens x => .tooManyTokens (x.map f)
  | .iHasA x => .iHasA (x.map f)
  | .variableAssignment x => .variableAssignment (x.map f)
  | .expression x => .expression (x.map f)
  | .missingToken t => .missingToken (f t)
  | .oRly x => .oRly (x.map f)
  | .missingBlockClosingToken t => .missingBlockClosingToken (f t)
  | .howIsI x => .howIsI (x.map f)
  | .imInYr x => .imInYr (x.map f)
  | .iIz x => .iIz (x.map f)

/-- Replace the tokens of an initial value. -/
def IHasAInitialValue.map (f : Token → Token) : IHasAInitialValue → IHasAInitialValue
  | .expression e => .expression (e.map f)
  | .type t => .type (t.map f)

/-- Replace the tokens of a declaration. -/
def IHasA.map (f : Token → Token) (n : IHasA) : IHasA :=
  ⟨f n.iHasAToken, n.identifier.map f, n.initialValue.map (·.map f)⟩

/-- Replace the tokens of a version. -/
def Hai.map (f : Token → Token) (n : Hai) : Hai := ⟨f n.haiToken, n.version.map f⟩

/-- Replace the tokens of a slot declaration. -/
def BukkitSetSlot.map (f : Token → Token) (n : BukkitSetSlot) : BukkitSetSlot :=
  ⟨n.bukkit.map f, n.slotName.map f, n.value.map f⟩

/-- Replace the tokens of an assignment. -/
def VariableAssignment.map (f : Token → Token) (n : VariableAssignment) : VariableAssignment :=
  ⟨n.variableAccess.map f, n.expression.map f, f n.rToken⟩

/-- Replace the tokens of an output. -/
def Visible.map (f : Token → Token) (n : Visible) : Visible :=
  ⟨f n.visibleToken, n.expressions.map (·.map f), n.exclamationMark.map f⟩

/-- Replace the tokens of a return. -/
def FoundYr.map (f : Token → Token) (n : FoundYr) : FoundYr := ⟨f n.foundYrToken, n.expression.map f⟩

/-- Replace the tokens of a call. -/
def IIz.map (f : Token → Token) (n : IIz) : IIz :=
  ⟨f n.iIzToken, n.name.map f, n.arguments.map (·.map f)⟩

/-- Replace the tokens of an input. -/
def Gimmeh.map (f : Token → Token) (n : Gimmeh) : Gimmeh := ⟨f n.gimmehToken, n.variableAccess.map f⟩

/-- Replace the token of a loop operation. -/
def LoopOperation.map (f : Token → Token) : LoopOperation → LoopOperation
  | .uppin t => .uppin (f t)
  | .nerfin t => .nerfin (f t)

/-- Replace the tokens of a loop condition. -/
def LoopCondition.map (f : Token → Token) : LoopCondition → LoopCondition
  | .til e => .til (e.map f)
  | .wile e => .wile (e.map f)

/-- Replace the tokens of a loop's iteration. -/
def LoopIterationOperation.map (f : Token → Token) (n : LoopIterationOperation) : LoopIterationOperation :=
  ⟨n.operation.map f, n.operand.map f⟩

mutual

/-- Replace the tokens of a node. -/
def Node.map (f : Token → Token) : Node → Node
  | .iHasA n => .iHasA (n.map f)
  | .hai n => .hai (n.map f)
  | .imInYr t label op cond body endLabel =>
    .imInYr (f t) (f label) (op.map (·.map f)) (cond.map (·.map f)) (mapBlock f body) (f endLabel)
  | .bukkitSetSlot n => .bukkitSetSlot (n.map f)
  | .variableAssignment n => .variableAssignment (n.map f)
  | .visible n => .visible (n.map f)
  | .foundYr n => .foundYr (n.map f)
  | .wtf t omgs omgWtf => .wtf (f t) (mapOmgs f omgs) (mapOmgWtf f omgWtf)
  | .oRly t yaRly noWai mebbes => .oRly (f t) (mapYaRly f yaRly) (mapNoWai f noWai) (mapMebbes f mebbes)
  | .iIz n => .iIz (n.map f)
  | .howIzI t name params body => .howIzI (f t) (name.map f) (params.map (·.map f)) (mapBlock f body)
  | .gtfo t => .gtfo (f t)
  | .gimmeh n => .gimmeh (n.map f)
  | .expression e => .expression (e.map f)
  | .astError e => .astError (e.map f)
  | .kThxBye t => .kThxBye (f t)

/-- Replace the tokens of the cases of a switch. -/
def mapOmgs (f : Token → Token) : List WtfOmg → List WtfOmg
  | [] => []
  | .mk t e b :: rest => .mk (f t) (e.map f) (mapBlock f b) :: mapOmgs f rest

/-- Replace the tokens of the default case of a switch. -/
def mapOmgWtf (f : Token → Token) : Option WtfOmgWtf → Option WtfOmgWtf
  | none => none
  | some (.mk t b) => some (.mk (f t) (mapBlock f b))

/-- Replace the tokens of a `YA RLY` part. -/
def mapYaRly (f : Token → Token) : Option YaRly → Option YaRly
  | none => none
  | some (.mk t b) => some (.mk (f t) (mapBlock f b))

/-- Replace the tokens of `MEBBE` parts. -/
def mapMebbes (f : Token → Token) : List Mebbe → List Mebbe
  | [] => []
  | .mk t e b :: rest => .mk (f t) (e.map f) (mapBlock f b) :: mapMebbes f rest

/-- Replace the tokens of a `NO WAI` part. -/
def mapNoWai (f : Token → Token) : Option NoWai → Option NoWai
  | none => none
  | some (.mk t b) => some (.mk (f t) (mapBlock f b))

/-- Replace the tokens of a block. -/
def mapBlock (f : Token → Token) : List Node → List Node
  | [] => []
  | node :: rest => node.map f :: mapBlock f rest

end

end Lol
