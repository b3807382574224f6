import Verif.Parser.StatementIterator

/-!
# The syntax tree: data types of `src/parser`

`Box<T>` is `T`, `Vec<T>` and `VecDeque<T>` are `List T`. For the recursive types the fields of the Rust
struct wrapped by an enum variant are listed as arguments of the constructor.
-/

namespace Lol

/-- `Identifier`, `src/parser/expression/identifier.rs:8-13` -/
structure Identifier where
  name : Token
  srs : Option Token
  deriving DecidableEq, Repr

/-- `ASTType`, `src/parser/expression/identifier.rs:60-73` -/
inductive ASTType where
  | bukkit (t : Token)
  | numbr (t : Token)
  | numbar (t : Token)
  | yarn (t : Token)
  | troof (t : Token)
  | noob (t : Token)
  deriving DecidableEq, Repr

/-- `VariableAccessSlot`, `src/parser/expression/variable_access.rs:13-16` -/
structure VariableAccessSlot where
  slotAccessToken : Token
  identifier : Identifier
  deriving DecidableEq, Repr

/-- `VariableAccess`, `src/parser/expression/variable_access.rs:33-39` -/
structure VariableAccess where
  identifier : Identifier
  accesses : List VariableAccessSlot
  deriving DecidableEq, Repr

/-- `ASTExpressionValue`, `src/parser/expression/mod.rs:84-90` -/
inductive ExprValue where
  | variableAccess (v : VariableAccess)
  | literal (t : Token)
  deriving DecidableEq, Repr

/-- `BinaryOpt`, `src/parser/expression/binary_operation.rs:11-73` -/
inductive BinaryOpt where
  | eitherOf (t : Token)
  | wonOf (t : Token)
  | sumOf (t : Token)
  | diffOf (t : Token)
  | produktOf (t : Token)
  | quoshuntOf (t : Token)
  | modOf (t : Token)
  | biggrOf (t : Token)
  | smallrOf (t : Token)
  | bothSaem (t : Token)
  | bothOf (t : Token)
  | diffrint (t : Token)
  deriving DecidableEq, Repr

/-- `BinaryOpt::token` and `into_token`, `src/parser/expression/binary_operation.rs:77-110` -/
def BinaryOpt.token : BinaryOpt → Token
  | eitherOf t => t
  | wonOf t => t
  | sumOf t => t
  | diffOf t => t
  | produktOf t => t
  | quoshuntOf t => t
  | modOf t => t
  | biggrOf t => t
  | smallrOf t => t
  | bothSaem t => t
  | bothOf t => t
  | diffrint t => t

/-- `UnaryOpt`, `src/parser/expression/unary_operation.rs:8-14` -/
inductive UnaryOpt where
  | not (t : Token)
  deriving DecidableEq, Repr

/-- `UnaryOpt::token` and `into_token`, `src/parser/expression/unary_operation.rs:18-29` -/
def UnaryOpt.token : UnaryOpt → Token
  | not t => t

/-- `NaryOpt`, `src/parser/expression/nary_operations.rs:11-27` -/
inductive NaryOpt where
  | allOf (t : Token)
  | smoosh (t : Token)
  | anyOf (t : Token)
  deriving DecidableEq, Repr

/-- `NaryOpt::token` and `into_token`, `src/parser/expression/nary_operations.rs:31-46` -/
def NaryOpt.token : NaryOpt → Token
  | allOf t => t
  | smoosh t => t
  | anyOf t => t

mutual

/-- `ASTExpression`, `src/parser/expression/mod.rs:194-203`, with `BinaryOperation`
(`binary_operation.rs:170-175`), `UnaryOperation` (`unary_operation.rs:78-81`) and `NaryOperation`
(`nary_operations.rs:161-165`). -/
inductive Expr where
  | binary (operator : BinaryOpt) (left : Expr) (an : Option Token) (right : Expr)
  | unary (operator : UnaryOpt) (expression : Expr)
  | nary (operator : NaryOpt) (expressions : List Operand) (mkay : Option Token)
  | value (v : ExprValue)

/-- `NaryOperationOperand`, `src/parser/expression/nary_operations.rs:148-151` -/
inductive Operand where
  | mk (operand : Expr) (an : Option Token)

end

/-- `ExpressionError`, `src/parser/expression/mod.rs:273-276` -/
inductive ExpressionError where
  | missingOperands (t : Token)
  deriving DecidableEq, Repr

/-- `VariableAssignmentError`, `src/parser/statements/assignment.rs:97-108` -/
inductive VariableAssignmentError where
  | missingR (t : Token)
  | expectedValue (t : Token)
  deriving DecidableEq, Repr

/-- `HowIsIError`, `src/parser/statements/how_is_i.rs:23-26` -/
inductive HowIsIError where
  | missingNameIdentifier (t : Token)
  deriving DecidableEq, Repr

/-- `IHasAError`, `src/parser/statements/i_has_a.rs:19-27` -/
inductive IHasAError where
  | invalidIdentifier (t : Token)
  | missingIdentifier (t : Token)
  | expectedInitialValue (t : Token)
  deriving DecidableEq, Repr

/-- `IIzError`, `src/parser/statements/i_is.rs:23-39` -/
inductive IIzError where
  | missingName (t : Token)
  | missingArgument (t : Token)
  | missingMkay (t : Token)
  deriving DecidableEq, Repr

/-- `ImInYrError`, `src/parser/statements/im_in_yr.rs:11-62` -/
inductive ImInYrError where
  | missingYr (t : Token)
  | missingStartLabel (t : Token)
  | invalidStartLabel (t : Token)
  | missingEndLabel (t : Token)
  | invalidEndLabel (t : Token)
  | missingImOuttaYr (t : Token)
  | invalidOperation (t : Token)
  | missingOperand (t : Token)
  | invalidConditional (t : Token)
  | missingConditionalExpression (t : Token)
  deriving DecidableEq, Repr

/-- `ORlyError`, `src/parser/statements/o_rly.rs:44-49` -/
inductive ORlyError where
  | missingQuestionMark (t : Token)
  | missingMebbeExpression (t : Token)
  deriving DecidableEq, Repr

/-- `ASTErrorType`, `src/parser/error.rs:14-37` -/
inductive ASTError where
  | unexpectedToken (t : Token)
  | tooManyTokens (ts : List Token)
  | iHasA (e : IHasAError)
  | variableAssignment (e : VariableAssignmentError)
  | expression (e : ExpressionError)
  | missingToken (t : Token)
  | oRly (e : ORlyError)
  | missingBlockClosingToken (t : Token)
  | howIsI (e : HowIsIError)
  | imInYr (e : ImInYrError)
  | iIz (e : IIzError)
  deriving DecidableEq, Repr

/-- `IHasAInitialValue`, `src/parser/statements/i_has_a.rs:10-15` -/
inductive IHasAInitialValue where
  | expression (e : Expr)
  | type (t : ASTType)

/-- `IHasA`, `src/parser/statements/i_has_a.rs:31-37` -/
structure IHasA where
  iHasAToken : Token
  identifier : Identifier
  initialValue : Option IHasAInitialValue

/-- `Hai`, `src/parser/statements/hai.rs:9-12` -/
structure Hai where
  haiToken : Token
  version : List Token

/-- `BukkitSetSlot`, `src/parser/statements/bukkit_set_slot.rs:12-19` -/
structure BukkitSetSlot where
  bukkit : VariableAccess
  slotName : Identifier
  value : Expr

/-- `VariableAssignment`, `src/parser/statements/assignment.rs:70-77` -/
structure VariableAssignment where
  variableAccess : VariableAccess
  expression : Expr
  rToken : Token

/-- `Visible`, `src/parser/statements/visible.rs:11-15` -/
structure Visible where
  visibleToken : Token
  expressions : List Expr
  exclamationMark : Option Token

/-- `FoundYr`, `src/parser/statements/found_yr.rs:16-19` -/
structure FoundYr where
  foundYrToken : Token
  expression : Expr

/-- `IIz`, `src/parser/statements/i_is.rs:11-19` -/
structure IIz where
  iIzToken : Token
  name : VariableAccess
  arguments : List Expr

/-- `Gimmeh`, `src/parser/statements/gimmeh.rs:13-16` -/
structure Gimmeh where
  gimmehToken : Token
  variableAccess : VariableAccess

/-- `LoopOperation`, `src/parser/statements/im_in_yr.rs:66-71` -/
inductive LoopOperation where
  | uppin (t : Token)
  | nerfin (t : Token)
  deriving DecidableEq, Repr

/-- `impl Into<Token> for LoopOperation`, `src/parser/statements/im_in_yr.rs:73-80` -/
def LoopOperation.token : LoopOperation → Token
  | nerfin t => t
  | uppin t => t

/-- `LoopCondition`, `src/parser/statements/im_in_yr.rs:84-89` -/
inductive LoopCondition where
  | til (e : Expr)
  | wile (e : Expr)

/-- `LoopIterationOperation`, `src/parser/statements/im_in_yr.rs:93-98` -/
structure LoopIterationOperation where
  operation : LoopOperation
  operand : VariableAccess

mutual

/-- `Node`, `src/parser/statements/mod.rs:92-109`, with `ImInYr` (`im_in_yr.rs:127-139`), `Wtf`
(`wtf.rs:26-32`), `ORly` (`o_rly.rs:30-40`), `HowIzI` (`how_is_i.rs:11-19`), `Gtfo` (`gtfo.rs:21-23`) and
`KThxBye` (`kthxbye.rs:5-7`). -/
inductive Node where
  | iHasA (n : IHasA)
  | hai (n : Hai)
  | imInYr (imInYrToken : Token) (label : Token) (onIteration : Option LoopIterationOperation)
      (condition : Option LoopCondition) (codeBlock : List Node) (endLabel : Token)
  | bukkitSetSlot (n : BukkitSetSlot)
  | variableAssignment (n : VariableAssignment)
  | visible (n : Visible)
  | foundYr (n : FoundYr)
  | wtf (wtfToken : Token) (omg : List WtfOmg) (omgWtf : Option WtfOmgWtf)
  | oRly (oRlyToken : Token) (ifTrue : Option YaRly) (ifFalse : Option NoWai) (mebbes : List Mebbe)
  | iIz (n : IIz)
  | howIzI (howIzIToken : Token) (name : Identifier) (arguments : List Identifier) (body : List Node)
  | gtfo (gtfoToken : Token)
  | gimmeh (n : Gimmeh)
  | expression (e : Expr)
  | astError (e : ASTError)
  | kThxBye (kThxByeToken : Token)

/-- `WtfOmg`, `src/parser/statements/wtf.rs:12-16` -/
inductive WtfOmg where
  | mk (omgToken : Token) (expression : Expr) (block : List Node)

/-- `WtfOmgWtf`, `src/parser/statements/wtf.rs:19-22` -/
inductive WtfOmgWtf where
  | mk (omgWtfToken : Token) (block : List Node)

/-- `YaRly`, `src/parser/statements/o_rly.rs:10-13` -/
inductive YaRly where
  | mk (yaRlyToken : Token) (block : List Node)

/-- `NoWai`, `src/parser/statements/o_rly.rs:16-19` -/
inductive NoWai where
  | mk (noWaiToken : Token) (block : List Node)

/-- `Mebbe`, `src/parser/statements/o_rly.rs:22-26` -/
inductive Mebbe where
  | mk (mebbeToken : Token) (condition : Expr) (block : List Node)

end

/-- `ASTBlock`, `src/parser/blocks.rs:17` -/
abbrev Block := List Node

end Lol
