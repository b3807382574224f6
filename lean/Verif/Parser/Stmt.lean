import Verif.Parser.Expr
import Verif.Lexer.Model

/-!
# Parsers of `src/parser/statements` and `src/parser/blocks.rs`, and the entry points

`fuel` bounds loops and recursion. `block` stands for the calls of `parse_block`, which is given the predicate
that recognises the tokens it stops at.
-/

namespace Lol

/-- `IHasA::parse`, `src/parser/statements/i_has_a.rs:40-92` -/
def IHasA.parse (fuel : Nat) (first : Token) : Prog IHasA := do
  match ← next with
  | none => fail (.iHasA (.missingIdentifier first))
  | some token =>
    if VariableAccess.isValid token then
      let identifier ← Identifier.parse token
      match ← next with
      | none => pure { iHasAToken := first, identifier := identifier, initialValue := none }
      | some assignmentToken =>
        if assignmentToken.isKeyword .ITZ then
          match ← next with
          | none => fail (.iHasA (.expectedInitialValue assignmentToken))
          | some valueToken =>
            match ASTType.tryFrom valueToken with
            | some type =>
              pure { iHasAToken := first, identifier := identifier, initialValue := some (.type type) }
            | none =>
              let e ← parseExpr fuel valueToken
              pure { iHasAToken := first, identifier := identifier, initialValue := some (.expression e) }
        else fail (.unexpectedToken assignmentToken)
    else fail (.iHasA (.invalidIdentifier token))

/-- The `while let` loop of `Visible::parse`, `src/parser/statements/visible.rs:23-25` -/
def Visible.parseExpressions (exprFuel : Nat) : (fuel : Nat) → Prog (List Expr)
  | 0 => .outOfFuel
  | fuel + 1 => do
    match ← nextIfTokenTypeNe .exclamationMark with
    | none => pure []
    | some token =>
      let e ← parseExpr exprFuel token
      let more ← Visible.parseExpressions exprFuel fuel
      pure (e :: more)

/-- `Visible::parse`, `src/parser/statements/visible.rs:18-34` -/
def Visible.parse (fuel : Nat) (first : Token) : Prog Visible := do
  let expressions ← Visible.parseExpressions fuel fuel
  let exclamationMark ← nextIfTokenTypeEq .exclamationMark
  pure { visibleToken := first, expressions := expressions, exclamationMark := exclamationMark }

/-- `Gimmeh::parse`, `src/parser/statements/gimmeh.rs:19-30` -/
def Gimmeh.parse (fuel : Nat) (first : Token) : Prog Gimmeh := do
  match ← next with
  | some token =>
    let v ← VariableAccess.parse fuel token
    pure { variableAccess := v, gimmehToken := first }
  | none => fail (.missingToken first)

/-- `FoundYr::parse`, `src/parser/statements/found_yr.rs:22-36` -/
def FoundYr.parse (fuel : Nat) (first : Token) : Prog FoundYr := do
  match ← next with
  | none => fail (.missingToken first)
  | some token =>
    let expression ← parseExpr fuel token
    pure { foundYrToken := first, expression := expression }

/-- `Hai::parse`, `src/parser/statements/hai.rs:15-23` -/
def Hai.parse (first : Token) : Prog Hai := do
  let version ← nextStatement
  pure { haiToken := first, version := version }

/-- `VariableAssignment::parse`, `src/parser/statements/assignment.rs:111-137` -/
def VariableAssignment.parse (fuel : Nat) (identifier : VariableAccess) : Prog VariableAssignment := do
  match ← next with
  | none => fail (.variableAssignment (.missingR identifier.lastToken))
  | some rToken =>
    if rToken.isKeyword .R then
      match ← next with
      | none => fail (.variableAssignment (.expectedValue rToken))
      | some token =>
        let value ← parseExpr fuel token
        pure { variableAccess := identifier, expression := value, rToken := rToken }
    else fail (.variableAssignment (.missingR identifier.lastToken))

/-- `BukkitSetSlot::parse`, `src/parser/statements/bukkit_set_slot.rs:22-68` -/
def BukkitSetSlot.parse (fuel : Nat) (bukkit : VariableAccess) : Prog BukkitSetSlot := do
  match ← next with
  | none => fail (.unexpectedToken bukkit.lastToken)
  | some hasAToken =>
    if hasAToken.isKeyword .HAS_A then
      match ← next with
      | none => fail (.variableAssignment (.expectedValue hasAToken))
      | some token =>
        let slotName ← Identifier.parse token
        match ← next with
        | none => fail (.missingToken slotName.name)
        | some itzToken =>
          if itzToken.isKeyword .ITZ then
            match ← next with
            | none => fail (.missingToken itzToken)
            | some token =>
              let value ← parseExpr fuel token
              pure { bukkit := bukkit, slotName := slotName, value := value }
          else fail (.unexpectedToken itzToken)
    else fail (.unexpectedToken bukkit.lastToken)

/-- The argument loop of `IIz::parse`, `src/parser/statements/i_is.rs:51-70` -/
def IIz.parseArguments (exprFuel : Nat) : (fuel : Nat) → Prog (List Expr)
  | 0 => .outOfFuel
  | fuel + 1 => do
    match ← nextIf (Token.isKeyword .YR) with
    | none => pure []
    | some yrToken =>
      match ← next with
      | none => fail (.iIz (.missingArgument yrToken))
      | some token =>
        let e ← parseExpr exprFuel token
        match ← nextIf (Token.isKeyword .AN) with
        | none => pure [e]
        | some _ =>
          let more ← IIz.parseArguments exprFuel fuel
          pure (e :: more)

/-- `IIz::parse`, `src/parser/statements/i_is.rs:42-85` -/
def IIz.parse (fuel : Nat) (first : Token) : Prog IIz := do
  match ← next with
  | none => fail (.iIz (.missingName first))
  | some token =>
    let name ← VariableAccess.parse fuel token
    let arguments ← IIz.parseArguments fuel fuel
    match ← next with
    | none => fail (.iIz (.missingMkay first))
    | some token =>
      if token.isKeyword .MKAY then
        pure { iIzToken := first, name := name, arguments := arguments }
      else fail (.iIz (.missingMkay token))

/-- `parse_conditional`, `src/parser/statements/im_in_yr.rs:191-227` -/
def parseConditional (fuel : Nat) : Prog (Option LoopCondition) := do
  match ← nextIf (fun t => t.isKeyword .TIL || t.isKeyword .WILE) with
  | none => pure none
  | some token =>
    match ← next with
    | none => fail (.imInYr (.missingConditionalExpression token))
    | some first =>
      let e ← parseExpr fuel first
      if token.isKeyword .TIL then pure (some (.til e)) else pure (some (.wile e))

/-- `parse_iteration_operation`, `src/parser/statements/im_in_yr.rs:229-268` -/
def parseIterationOperation (fuel : Nat) : Prog (Option LoopIterationOperation) := do
  match ← nextIf (fun t => t.isKeyword .UPPIN || t.isKeyword .NERFIN) with
  | none => pure none
  | some token =>
    let operation := if token.isKeyword .UPPIN then LoopOperation.uppin token else .nerfin token
    match ← next with
    | none => fail (.imInYr (.missingOperand operation.token))
    | some yr =>
      if yr.isKeyword .YR then
        match ← next with
        | none => fail (.imInYr (.missingOperand operation.token))
        | some first =>
          let operand ← VariableAccess.parse fuel first
          pure (some { operation := operation, operand := operand })
      else fail (.imInYr (.missingYr yr))

/-- `matches!(token.token_type, TokenType::Identifier(_))`, as matched in `src/parser/statements/im_in_yr.rs:149,173`. -/
def Token.isIdentifier (t : Token) : Bool :=
  match t.tokenType with
  | .identifier _ => true
  | _ => false

/-- The tokens `parse_block_root` stops at, `src/parser/blocks.rs:158-160` -/
def stopRoot (_ : Token) : Bool := false

/-- The tokens `parse_block_function` stops at, `src/parser/blocks.rs:162-167` -/
def stopFunction (t : Token) : Bool := t.isKeyword .IF_U_SAY_SO

/-- The tokens `parse_block_loop` stops at, `src/parser/blocks.rs:169-174` -/
def stopLoop (t : Token) : Bool := t.isKeyword .IM_OUTTA_YR

/-- The tokens `parse_block_if` stops at, `src/parser/blocks.rs:176-183` -/
def stopIf (t : Token) : Bool :=
  t.isKeyword .MEBBE || t.isKeyword .NO_WAI || t.isKeyword .YA_RLY || t.isKeyword .OIC

/-- The tokens `parse_block_switch` stops at, `src/parser/blocks.rs:185-190` -/
def stopSwitch (t : Token) : Bool :=
  t.isKeyword .OMG || t.isKeyword .OMGWTF || t.isKeyword .OIC

/-- `ImInYr::parse`, `src/parser/statements/im_in_yr.rs:142-188` -/
def parseImInYr (block : (Token → Bool) → Prog Block) (fuel : Nat) (first : Token) : Prog Node := do
  match ← next with
  | none => fail (.imInYr (.missingStartLabel first))
  | some label =>
    if label.isIdentifier then
      let onIteration ← parseIterationOperation fuel
      let condition ← parseConditional fuel
      nextStatementShouldBeEmpty
      let codeBlock ← block stopLoop
      match ← next with
      | none => fail (.imInYr (.missingImOuttaYr first))
      | some imOuttaYr =>
        match ← next with
        | none => fail (.imInYr (.missingEndLabel imOuttaYr))
        | some endLabel =>
          if endLabel.isIdentifier then
            pure (.imInYr first label onIteration condition codeBlock endLabel)
          else fail (.imInYr (.invalidEndLabel endLabel))
    else fail (.imInYr (.invalidStartLabel label))

/-- The parameter loop of `HowIzI::parse`, `src/parser/statements/how_is_i.rs:38-58` -/
def parseParameters : (fuel : Nat) → Prog (List Identifier)
  | 0 => .outOfFuel
  | fuel + 1 => do
    match ← nextIf (Token.isKeyword .YR) with
    | none => pure []
    | some yrToken =>
      match ← next with
      | none => fail (.missingToken yrToken)
      | some token =>
        let param ← Identifier.parse token
        match ← peek with
        | none => pure [param]
        | some t =>
          if t.isKeyword .AN then
            let _ ← next
            let more ← parseParameters fuel
            pure (param :: more)
          else pure [param]

/-- `HowIzI::parse`, `src/parser/statements/how_is_i.rs:29-80` -/
def parseHowIzI (block : (Token → Bool) → Prog Block) (fuel : Nat) (first : Token) : Prog Node := do
  match ← next with
  | none => fail (.howIsI (.missingNameIdentifier first))
  | some token =>
    let name ← Identifier.parse token
    let arguments ← parseParameters fuel
    nextStatementShouldBeEmpty
    let body ← block stopFunction
    match ← next with
    | none => fail (.missingBlockClosingToken first)
    | some token =>
      if token.isKeyword .IF_U_SAY_SO then
        nextStatementShouldBeEmpty
        pure (.howIzI first name arguments body)
      else fail (.unexpectedToken token)

/-- `Some(TokenType::Symbol(symbol)) if symbol == "?"`, `src/parser/statements/o_rly.rs:57` and
`src/parser/statements/wtf.rs:40` -/
def Token.isQuestion (t : Token) : Bool := decide (t.tokenType = .symbol ['?'])

/-- The `OMG` loop of `Wtf::parse`, `src/parser/statements/wtf.rs:45-60` -/
def parseOmgs (block : (Token → Bool) → Prog Block) (exprFuel : Nat) : (fuel : Nat) → Prog (List WtfOmg)
  | 0 => .outOfFuel
  | fuel + 1 => do
    match ← nextIf (Token.isKeyword .OMG) with
    | none => pure []
    | some omgToken =>
      match ← next with
      | none => fail (.missingToken omgToken)
      | some token =>
        let expression ← parseExpr exprFuel token
        nextStatementShouldBeEmpty
        let b ← block stopSwitch
        let more ← parseOmgs block exprFuel fuel
        pure (.mk omgToken expression b :: more)

/-- The `OMGWTF` part of `Wtf::parse`, `src/parser/statements/wtf.rs:62-72` -/
def parseOmgWtf (block : (Token → Bool) → Prog Block) : Prog (Option WtfOmgWtf) := do
  match ← nextIf (Token.isKeyword .OMGWTF) with
  | none => pure none
  | some omgWtfToken =>
    nextStatementShouldBeEmpty
    let b ← block stopSwitch
    pure (some (.mk omgWtfToken b))

/-- `Wtf::parse`, `src/parser/statements/wtf.rs:35-90` -/
def parseWtf (block : (Token → Bool) → Prog Block) (fuel : Nat) (first : Token) : Prog Node := do
  match ← next with
  | none => fail (.oRly (.missingQuestionMark first))
  | some symbol =>
    if symbol.isQuestion then
      nextStatementShouldBeEmpty
      let omg ← parseOmgs block fuel fuel
      let omgWtf ← parseOmgWtf block
      match ← next with
      | none => fail (.missingBlockClosingToken first)
      | some token =>
        if token.isKeyword .OIC then
          nextStatementShouldBeEmpty
          pure (.wtf first omg omgWtf)
        else fail (.unexpectedToken token)
    else fail (.oRly (.missingQuestionMark first))

/-- The `YA RLY` part of `ORly::parse`, `src/parser/statements/o_rly.rs:62-72` -/
def parseYaRly (block : (Token → Bool) → Prog Block) : Prog (Option YaRly) := do
  match ← nextIf (Token.isKeyword .YA_RLY) with
  | none => pure none
  | some yaRlyToken =>
    nextStatementShouldBeEmpty
    let b ← block stopIf
    pure (some (.mk yaRlyToken b))

/-- The `MEBBE` loop of `ORly::parse`, `src/parser/statements/o_rly.rs:74-89` -/
def parseMebbes (block : (Token → Bool) → Prog Block) (exprFuel : Nat) : (fuel : Nat) → Prog (List Mebbe)
  | 0 => .outOfFuel
  | fuel + 1 => do
    match ← nextIfTokenTypeEq (.keyword .MEBBE) with
    | none => pure []
    | some mebbeToken =>
      match ← next with
      | none => fail (.oRly (.missingMebbeExpression mebbeToken))
      | some token =>
        let condition ← parseExpr exprFuel token
        nextStatementShouldBeEmpty
        let b ← block stopIf
        let more ← parseMebbes block exprFuel fuel
        pure (.mk mebbeToken condition b :: more)

/-- The `NO WAI` part of `ORly::parse`, `src/parser/statements/o_rly.rs:91-101` -/
def parseNoWai (block : (Token → Bool) → Prog Block) : Prog (Option NoWai) := do
  match ← nextIf (Token.isKeyword .NO_WAI) with
  | none => pure none
  | some noWaiToken =>
    nextStatementShouldBeEmpty
    let b ← block stopIf
    pure (some (.mk noWaiToken b))

/-- `ORly::parse`, `src/parser/statements/o_rly.rs:52-118` -/
def parseORly (block : (Token → Bool) → Prog Block) (fuel : Nat) (first : Token) : Prog Node := do
  match ← next with
  | none => fail (.oRly (.missingQuestionMark first))
  | some symbol =>
    if symbol.isQuestion then
      nextStatementShouldBeEmpty
      let ifTrue ← parseYaRly block
      let mebbes ← parseMebbes block fuel fuel
      let ifFalse ← parseNoWai block
      match ← next with
      | none => fail (.missingBlockClosingToken first)
      | some token =>
        if token.isKeyword .OIC then pure (.oRly first ifTrue ifFalse mebbes)
        else fail (.unexpectedToken token)
    else fail (.oRly (.missingQuestionMark first))

/-- The first part of `parse_statement`, for statements that start with a variable access,
`src/parser/statements/mod.rs:207-221` -/
def parseAccessStatement (fuel : Nat) (first : Token) : Prog Node := do
  let variableAccess ← VariableAccess.parse fuel first
  match ← peek with
  | none => pure (.expression (.value (.variableAccess variableAccess)))
  | some t =>
    match t.tokenType with
    | .keyword .R => do
      let n ← VariableAssignment.parse fuel variableAccess
      pure (.variableAssignment n)
    | .keyword .HAS_A => do
      let n ← BukkitSetSlot.parse fuel variableAccess
      pure (.bukkitSetSlot n)
    | _ => .panic .unreachableStatement

/-- `parse_statement`, `src/parser/statements/mod.rs:202-252` -/
def parseStatement (block : (Token → Bool) → Prog Block) (fuel : Nat) (first : Token) : Prog Node :=
  if VariableAccess.isValid first then parseAccessStatement fuel first
  else
    match first.tokenType with
    | .keyword .I_HAS_A => do
      let n ← IHasA.parse fuel first
      pure (.iHasA n)
    | .keyword .VISIBLE => do
      let n ← Visible.parse fuel first
      pure (.visible n)
    | .keyword .GIMMEH => do
      let n ← Gimmeh.parse fuel first
      pure (.gimmeh n)
    | .keyword .FOUND_YR => do
      let n ← FoundYr.parse fuel first
      pure (.foundYr n)
    | .keyword .HAI => do
      let n ← Hai.parse first
      pure (.hai n)
    | .keyword .KTHXBYE => pure (.kThxBye first)
    | .keyword .GTFO => pure (.gtfo first)
    | .keyword .I_IZ => do
      let n ← IIz.parse fuel first
      pure (.iIz n)
    | .keyword .IM_IN_YR => parseImInYr block fuel first
    | .keyword .HOW_IZ_I => parseHowIzI block fuel first
    | .keyword .WTF => parseWtf block fuel first
    | .keyword .O_RLY => parseORly block fuel first
    | _ => do
      let e ← parseExpr fuel first
      pure (.expression e)

/-- `parse_block`, `src/parser/blocks.rs:132-156`. A round of the loop returns the nodes it pushes, and the loop
is a recursive call. -/
def parseBlock : (fuel : Nat) → (stop : Token → Bool) → Prog Block
  | 0, _ => .outOfFuel
  | fuel + 1, stop => do
    let nodes ← do
      match ← next with
      | some token =>
        match ← (parseStatement (parseBlock fuel) fuel token).toResult with
        | .ok node => pure [node]
        | .error e => pure [Node.astError e]
      | none => pure []
    let errors ← do
      match ← nextStatementShouldBeEmpty.toResult with
      | .ok _ => pure []
      | .error e => pure [Node.astError e]
    match ← peek with
    | none => pure (nodes ++ errors)
    | some token =>
      if stop token then pure (nodes ++ errors)
      else
        let more ← parseBlock fuel stop
        pure (nodes ++ errors ++ more)

/-- The recursion bound given to `parse` (not in `src/parser/mod.rs`; C20 shows that it does not matter). -/
def parseFuel (tokens : List Token) : Nat := 2 * tokens.length + 4

/-- `parse` (`src/parser/mod.rs:18-21`) with a recursion bound. `parse_block_root` does not return a `Result`: the `err` case cannot happen. -/
def parseWith (fuel : Nat) (tokens : List Token) : Out Block :=
  match (parseBlock fuel stopRoot).run StatementIterator.ops (StatementIterator.new tokens) with
  | .ok block _ => .ok block
  | .err e _ => .ok [.astError e]
  | .panic p => .panic p
  | .outOfFuel => .outOfFuel

/-- `parse`, `src/parser/mod.rs:18-21` -/
def parse (tokens : List Token) : Out Block := parseWith (parseFuel tokens) tokens

/-- `tokenize_and_parse`, `src/lib.rs:76-79` -/
def tokenizeAndParse (code : Str) : Out (Except TokenError Block) := do
  match ← tokenize code with
  | .error e => pure (.error e)
  | .ok tokens =>
    let block ← parse tokens
    pure (.ok block)

end Lol
