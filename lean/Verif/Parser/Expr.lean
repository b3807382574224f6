import Verif.Parser.Prog

/-! # Parsers of `src/parser/expression` -/

namespace Lol

/-- `Identifier::parse`, `src/parser/expression/identifier.rs:30-54` -/
def Identifier.parse (first : Token) : Prog Identifier :=
  match first.tokenType with
  | .identifier _ => pure { name := first, srs := none }
  | .keyword .SRS => do
    match ← next with
    | none => fail (.missingToken first)
    | some token =>
      match token.tokenType with
      | .identifier _ => pure { name := token, srs := some first }
      | _ => fail (.unexpectedToken token)
  | _ => fail (.unexpectedToken first)

/-- `impl TryFrom<Token> for ASTType`, `src/parser/expression/identifier.rs:99-112` (`none` for `Err`) -/
def ASTType.tryFrom (token : Token) : Option ASTType :=
  match token.tokenType with
  | .keyword .NUMBR => some (.numbr token)
  | .keyword .NUMBAR => some (.numbar token)
  | .keyword .YARN => some (.yarn token)
  | .keyword .NOOB => some (.noob token)
  | .keyword .BUKKIT => some (.bukkit token)
  | .keyword .TROOF => some (.troof token)
  | _ => none

/-- `VariableAccess::last_token`, `src/parser/expression/variable_access.rs:42-47` -/
def VariableAccess.lastToken (v : VariableAccess) : Token :=
  match v.accesses.getLast? with
  | some slot => slot.identifier.name
  | none => v.identifier.name

/-- The `while let` loop of `VariableAccess::parse`, `src/parser/expression/variable_access.rs:71-82`. The loop
is bounded by `fuel`; the list it pushes to is its return value. -/
def VariableAccess.parseSlots : (fuel : Nat) → Prog (List VariableAccessSlot)
  | 0 => .outOfFuel
  | fuel + 1 => do
    match ← nextIf (fun t => decide (t.tokenType = .bukkitSlotAccess)) with
    | none => pure []
    | some slotAccessToken =>
      match ← next with
      | none => fail (.missingToken slotAccessToken)
      | some token =>
        let identifier ← Identifier.parse token
        let more ← VariableAccess.parseSlots fuel
        pure ({ slotAccessToken := slotAccessToken, identifier := identifier } :: more)

/-- `VariableAccess::parse`, `src/parser/expression/variable_access.rs:65-88` -/
def VariableAccess.parse (fuel : Nat) (first : Token) : Prog VariableAccess := do
  let firstIdent ← Identifier.parse first
  let accesses ← VariableAccess.parseSlots fuel
  pure { identifier := firstIdent, accesses := accesses }

/-- `VariableAccess::is_valid`, `src/parser/expression/variable_access.rs:90-95` -/
def VariableAccess.isValid (token : Token) : Bool :=
  match token.tokenType with
  | .identifier _ => true
  | .keyword .SRS => true
  | _ => false

/-- `BinaryOperation::parse`, `src/parser/expression/binary_operation.rs:183-213`. `expr` stands for the
recursive calls of `ASTExpression::parse`. -/
def parseBinary (expr : Token → Prog Expr) (operator : BinaryOpt) : Prog Expr := do
  match ← next with
  | none => fail (.expression (.missingOperands operator.token))
  | some leftFirst =>
    let left ← expr leftFirst
    let an ← nextIf (Token.isKeyword .AN)
    match ← next with
    | none => fail (.expression (.missingOperands operator.token))
    | some rightFirst =>
      let right ← expr rightFirst
      pure (.binary operator left an right)

/-- `UnaryOperation::parse`, `src/parser/expression/unary_operation.rs:89-105` -/
def parseUnary (expr : Token → Prog Expr) (operator : UnaryOpt) : Prog Expr := do
  match ← next with
  | none => fail (.expression (.missingOperands operator.token))
  | some first =>
    let expression ← expr first
    pure (.unary operator expression)

/-- The `while let` loop of `NaryOperation::parse`, `src/parser/expression/nary_operations.rs:178-182`, bounded
by `fuel`. -/
def parseOperands (expr : Token → Prog Expr) : (fuel : Nat) → Prog (List Operand)
  | 0 => .outOfFuel
  | fuel + 1 => do
    match ← nextIfTokenTypeNe (.keyword .MKAY) with
    | none => pure []
    | some token =>
      let operand ← expr token
      let an ← nextIfTokenTypeEq (.keyword .AN)
      let more ← parseOperands expr fuel
      pure (.mk operand an :: more)

/-- `NaryOperation::parse`, `src/parser/expression/nary_operations.rs:173-189` -/
def parseNary (expr : Token → Prog Expr) (fuel : Nat) (operator : NaryOpt) : Prog Expr := do
  let expressions ← parseOperands expr fuel
  let mkay ← next
  pure (.nary operator expressions mkay)

/-- `ASTExpression::parse`, `src/parser/expression/mod.rs:292-361`. `fuel` bounds the depth of the recursion and
the rounds of the loops. -/
def parseExpr : (fuel : Nat) → Token → Prog Expr
  | 0, _ => .outOfFuel
  | fuel + 1, first =>
    match first.tokenType with
    | .identifier _ => do
      let v ← VariableAccess.parse fuel first
      pure (.value (.variableAccess v))
    | .keyword .SRS => do
      let v ← VariableAccess.parse fuel first
      pure (.value (.variableAccess v))
    | .value _ => pure (.value (.literal first))
    | .keyword .NOOB => pure (.value (.literal first))
    | .keyword .BOTH_OF => parseBinary (parseExpr fuel) (.bothOf first)
    | .keyword .EITHER_OF => parseBinary (parseExpr fuel) (.eitherOf first)
    | .keyword .WON_OF => parseBinary (parseExpr fuel) (.wonOf first)
    | .keyword .NOT => parseUnary (parseExpr fuel) (.not first)
    | .keyword .ALL_OF => parseNary (parseExpr fuel) fuel (.allOf first)
    | .keyword .ANY_OF => parseNary (parseExpr fuel) fuel (.anyOf first)
    | .keyword .SUM_OF => parseBinary (parseExpr fuel) (.sumOf first)
    | .keyword .DIFF_OF => parseBinary (parseExpr fuel) (.diffOf first)
    | .keyword .PRODUKT_OF => parseBinary (parseExpr fuel) (.produktOf first)
    | .keyword .QUOSHUNT_OF => parseBinary (parseExpr fuel) (.quoshuntOf first)
    | .keyword .MOD_OF => parseBinary (parseExpr fuel) (.modOf first)
    | .keyword .BIGGR_OF => parseBinary (parseExpr fuel) (.biggrOf first)
    | .keyword .SMALLR_OF => parseBinary (parseExpr fuel) (.smallrOf first)
    | .keyword .BOTH_SAEM => parseBinary (parseExpr fuel) (.bothSaem first)
    | .keyword .DIFFRINT => parseBinary (parseExpr fuel) (.diffrint first)
    | .keyword .SMOOSH => parseNary (parseExpr fuel) fuel (.smoosh first)
    | .keyword .MAEK => .panic .todoMaek
    | _ => fail (.unexpectedToken first)

end Lol
