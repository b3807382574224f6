import Verif.Parser.MapSpec
import Verif.Parser.StmtSpec

/-!
# Words that play the same part (specification)

`TokenType.role` is what the parser may look at in a token to decide how to go on: of an operator only whether it takes
two operands or any number of them, of a type and of a loop operation only that it is one. `x.swap f` is the tree `x`
with every token `t` replaced by `f t` and with every operator, type and loop operation made the one that its new token
names.
-/

namespace Lol

/-- One word for all the words that play the same part: operators with two operands, operators with any number of
operands, types other than `NOOB`, loop operations, and the words that the parser does not know. -/
def Keyword.role : Keyword → Keyword
  | .SUM_OF | .DIFF_OF | .PRODUKT_OF | .QUOSHUNT_OF | .MOD_OF | .BIGGR_OF | .SMALLR_OF | .BOTH_OF | .EITHER_OF | .WON_OF
  | .BOTH_SAEM | .DIFFRINT => .SUM_OF
  | .ALL_OF | .ANY_OF | .SMOOSH => .SMOOSH
  | .NUMBR | .NUMBAR | .YARN | .TROOF | .BUKKIT => .NUMBR
  | .UPPIN | .NERFIN => .UPPIN
  | .IS_NOW | .A | .BTW | .OBTW | .TLDR | .WIN | .FAIL => .A
  | k => k

/-- A token type without the name of an identifier, the value of a literal, the text of a comment, the character of a
symbol other than `?` and which of the words that play the same part it is. -/
def TokenType.role : TokenType → TokenType
  | .keyword k => .keyword k.role
  | ty => ty.kind

/-- The binary operator that a token names. -/
def BinaryOpt.named (t : Token) : Option BinaryOpt :=
  match t.tokenType with
  | .keyword .SUM_OF => some (.sumOf t)
  | .keyword .DIFF_OF => some (.diffOf t)
  | .keyword .PRODUKT_OF => some (.produktOf t)
  | .keyword .QUOSHUNT_OF => some (.quoshuntOf t)
  | .keyword .MOD_OF => some (.modOf t)
  | .keyword .BIGGR_OF => some (.biggrOf t)
  | .keyword .SMALLR_OF => some (.smallrOf t)
  | .keyword .BOTH_OF => some (.bothOf t)
  | .keyword .EITHER_OF => some (.eitherOf t)
  | .keyword .WON_OF => some (.wonOf t)
  | .keyword .BOTH_SAEM => some (.bothSaem t)
  | .keyword .DIFFRINT => some (.diffrint t)
  | _ => none

/-- The operator with any number of operands that a token names. -/
def NaryOpt.named (t : Token) : Option NaryOpt :=
  match t.tokenType with
  | .keyword .ALL_OF => some (.allOf t)
  | .keyword .ANY_OF => some (.anyOf t)
  | .keyword .SMOOSH => some (.smoosh t)
  | _ => none

/-- The type that a token names. -/
def ASTType.named (t : Token) : Option ASTType :=
  match t.tokenType with
  | .keyword .NUMBR => some (.numbr t)
  | .keyword .NUMBAR => some (.numbar t)
  | .keyword .YARN => some (.yarn t)
  | .keyword .NOOB => some (.noob t)
  | .keyword .BUKKIT => some (.bukkit t)
  | .keyword .TROOF => some (.troof t)
  | _ => none

/-- The loop operation that a token names. -/
def LoopOperation.named (t : Token) : Option LoopOperation :=
  match t.tokenType with
  | .keyword .UPPIN => some (.uppin t)
  | .keyword .NERFIN => some (.nerfin t)
  | _ => none

/-- The binary operator that the new token names. -/
def BinaryOpt.swap (f : Token → Token) (o : BinaryOpt) : BinaryOpt := (BinaryOpt.named (f o.token)).getD (o.map f)

/-- The operator with any number of operands that the new token names. -/
def NaryOpt.swap (f : Token → Token) (o : NaryOpt) : NaryOpt := (NaryOpt.named (f o.token)).getD (o.map f)

/-- The type that the new token names. -/
def ASTType.swap (f : Token → Token) (o : ASTType) : ASTType := (ASTType.named (f o.token)).getD (o.map f)

/-- The loop operation that the new token names. -/
def LoopOperation.swap (f : Token → Token) (o : LoopOperation) : LoopOperation :=
  (LoopOperation.named (f o.token)).getD (o.map f)

mutual

/-- Put words for words in an expression. -/
def Expr.swap (f : Token → Token) : Expr → Expr
  | .binary o l an r => .binary (o.swap f) (l.swap f) (an.map f) (r.swap f)
  | .unary o e => .unary (o.map f) (e.swap f)
  | .nary o es mkay => .nary (o.swap f) (swapOperands f es) (mkay.map f)
  | .value v => .value (v.map f)

/-- Put words for words in operands. -/
def swapOperands (f : Token → Token) : List Operand → List Operand
  | [] => []
  | .mk e an :: rest => .mk (e.swap f) (an.map f) :: swapOperands f rest

end

/-- Put words for words in an initial value. -/
def IHasAInitialValue.swap (f : Token → Token) : IHasAInitialValue → IHasAInitialValue
  | .expression e => .expression (e.swap f)
  | .type t => .type (t.swap f)

/-- Put words for words in a declaration. -/
def IHasA.swap (f : Token → Token) (n : IHasA) : IHasA :=
  ⟨f n.iHasAToken, n.identifier.map f, n.initialValue.map (·.swap f)⟩

/-- Put words for words in a slot declaration. -/
def BukkitSetSlot.swap (f : Token → Token) (n : BukkitSetSlot) : BukkitSetSlot :=
  ⟨n.bukkit.map f, n.slotName.map f, n.value.swap f⟩

/-- Put words for words in an assignment. -/
def VariableAssignment.swap (f : Token → Token) (n : VariableAssignment) : VariableAssignment :=
  ⟨n.variableAccess.map f, n.expression.swap f, f n.rToken⟩

/-- Put words for words in an output. -/
def Visible.swap (f : Token → Token) (n : Visible) : Visible :=
  ⟨f n.visibleToken, n.expressions.map (·.swap f), n.exclamationMark.map f⟩

/-- Put words for words in a return. -/
def FoundYr.swap (f : Token → Token) (n : FoundYr) : FoundYr := ⟨f n.foundYrToken, n.expression.swap f⟩

/-- Put words for words in a call. -/
def IIz.swap (f : Token → Token) (n : IIz) : IIz :=
  ⟨f n.iIzToken, n.name.map f, n.arguments.map (·.swap f)⟩

/-- Put words for words in a loop condition. -/
def LoopCondition.swap (f : Token → Token) : LoopCondition → LoopCondition
  | .til e => .til (e.swap f)
  | .wile e => .wile (e.swap f)

/-- Put words for words in a loop's iteration. -/
def LoopIterationOperation.swap (f : Token → Token) (n : LoopIterationOperation) : LoopIterationOperation :=
  ⟨n.operation.swap f, n.operand.map f⟩

mutual

/-- Put words for words in a node. -/
def Node.swap (f : Token → Token) : Node → Node
  | .iHasA n => .iHasA (n.swap f)
  | .hai n => .hai (n.map f)
  | .imInYr t label op cond body endLabel =>
    .imInYr (f t) (f label) (op.map (·.swap f)) (cond.map (·.swap f)) (swapBlock f body) (f endLabel)
  | .bukkitSetSlot n => .bukkitSetSlot (n.swap f)
  | .variableAssignment n => .variableAssignment (n.swap f)
  | .visible n => .visible (n.swap f)
  | .foundYr n => .foundYr (n.swap f)
  | .wtf t omgs omgWtf => .wtf (f t) (swapOmgs f omgs) (swapOmgWtf f omgWtf)
  | .oRly t yaRly noWai mebbes => .oRly (f t) (swapYaRly f yaRly) (swapNoWai f noWai) (swapMebbes f mebbes)
  | .iIz n => .iIz (n.swap f)
  | .howIzI t name params body => .howIzI (f t) (name.map f) (params.map (·.map f)) (swapBlock f body)
  | .gtfo t => .gtfo (f t)
  | .gimmeh n => .gimmeh (n.map f)
  | .expression e => .expression (e.swap f)
  | .astError e => .astError (e.map f)
  | .kThxBye t => .kThxBye (f t)

/-- Put words for words in the cases of a switch. -/
def swapOmgs (f : Token → Token) : List WtfOmg → List WtfOmg
  | [] => []
  | .mk t e b :: rest => .mk (f t) (e.swap f) (swapBlock f b) :: swapOmgs f rest

/-- Put words for words in the default case of a switch. -/
def swapOmgWtf (f : Token → Token) : Option WtfOmgWtf → Option WtfOmgWtf
  | none => none
  | some (.mk t b) => some (.mk (f t) (swapBlock f b))

/-- Put words for words in a `YA RLY` part. -/
def swapYaRly (f : Token → Token) : Option YaRly → Option YaRly
  | none => none
  | some (.mk t b) => some (.mk (f t) (swapBlock f b))

/-- Put words for words in `MEBBE` parts. -/
def swapMebbes (f : Token → Token) : List Mebbe → List Mebbe
  | [] => []
  | .mk t e b :: rest => .mk (f t) (e.swap f) (swapBlock f b) :: swapMebbes f rest

/-- Put words for words in a `NO WAI` part. -/
def swapNoWai (f : Token → Token) : Option NoWai → Option NoWai
  | none => none
  | some (.mk t b) => some (.mk (f t) (swapBlock f b))

/-- Put words for words in a block. -/
def swapBlock (f : Token → Token) : List Node → List Node
  | [] => []
  | node :: rest => node.swap f :: swapBlock f rest

end

end Lol
