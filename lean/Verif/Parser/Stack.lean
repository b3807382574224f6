import Verif.Parser.Stmt

/-!
# The parsers on a stack of limited size

`ASTExpression::parse` and `parse_block` call themselves, through the other parsing functions, and so need stack. Here
the parsers of `Verif/Parser/Expr.lean` and `Verif/Parser/Stmt.lean` are written down with the recursive calls as
arguments (`expr` for `ASTExpression::parse`, `block` for `parse_block`); `loops` bounds only the rounds of loops. The
theorems `*_eq` at the end show that they are the same functions. Then `parseExprIn` and `parseBlockIn` limit
how many calls of `ASTExpression::parse` and `parse_block` are active at the same time: when there is no room for a
call, the outcome is `outOfFuel`. Between two of these calls there are only a few calls of other functions of the crate
(`parse_statement`, the `parse` of a statement and its helpers, or the `parse` of an operation), none of which calls
itself.
-/

namespace Lol

/-- `ASTExpression::parse`, `src/parser/expression/mod.rs:292-361` -/
def exprBody (expr : Token → Prog Expr) (loops : Nat) (first : Token) : Prog Expr :=
  match first.tokenType with
  | .identifier _ => do
    let v ← VariableAccess.parse loops first
    pure (.value (.variableAccess v))
  | .keyword .SRS => do
    let v ← VariableAccess.parse loops first
    pure (.value (.variableAccess v))
  | .value _ => pure (.value (.literal first))
  | .keyword .NOOB => pure (.value (.literal first))
  | .keyword .BOTH_OF => parseBinary expr (.bothOf first)
  | .keyword .EITHER_OF => parseBinary expr (.eitherOf first)
  | .keyword .WON_OF => parseBinary expr (.wonOf first)
  | .keyword .NOT => parseUnary expr (.not first)
  | .keyword .ALL_OF => parseNary expr loops (.allOf first)
  | .keyword .ANY_OF => parseNary expr loops (.anyOf first)
  | .keyword .SUM_OF => parseBinary expr (.sumOf first)
  | .keyword .DIFF_OF => parseBinary expr (.diffOf first)
  | .keyword .PRODUKT_OF => parseBinary expr (.produktOf first)
  | .keyword .QUOSHUNT_OF => parseBinary expr (.quoshuntOf first)
  | .keyword .MOD_OF => parseBinary expr (.modOf first)
  | .keyword .BIGGR_OF => parseBinary expr (.biggrOf first)
  | .keyword .SMALLR_OF => parseBinary expr (.smallrOf first)
  | .keyword .BOTH_SAEM => parseBinary expr (.bothSaem first)
  | .keyword .DIFFRINT => parseBinary expr (.diffrint first)
  | .keyword .SMOOSH => parseNary expr loops (.smoosh first)
  | .keyword .MAEK => .panic .todoMaek
  | _ => fail (.unexpectedToken first)

/-- `IHasA::parse`, `src/parser/statements/i_has_a.rs:40-92` -/
def IHasA.parseIn (expr : Token → Prog Expr) (first : Token) : Prog IHasA := do
  match ← next with
  | none => fail (.iHasA (.missingIdentifier first))
  | some token =>
    if VariableAccess.isValid token then
      let identifier ← Identifier.parse token
      match ← next with
      | none => pure { iHasAToken := first, identifier := identifier, initialValue := none }
      | some assignmentToken =>
        if assignmentToken.isKeyword .ITZ then
          match ← next with
          | none => fail (.iHasA (.expectedInitialValue assignmentToken))
          | some valueToken =>
            match ASTType.tryFrom valueToken with
            | some type =>
              pure { iHasAToken := first, identifier := identifier, initialValue := some (.type type) }
            | none =>
              let e ← expr valueToken
              pure { iHasAToken := first, identifier := identifier, initialValue := some (.expression e) }
        else fail (.unexpectedToken assignmentToken)
    else fail (.iHasA (.invalidIdentifier token))

/-- The loop of `Visible::parse`, `src/parser/statements/visible.rs:23-25` -/
def Visible.parseExpressionsIn (expr : Token → Prog Expr) : (loops : Nat) → Prog (List Expr)
  | 0 => .outOfFuel
  | loops + 1 => do
    match ← nextIfTokenTypeNe .exclamationMark with
    | none => pure []
    | some token =>
      let e ← expr token
      let more ← Visible.parseExpressionsIn expr loops
      pure (e :: more)

/-- `Visible::parse`, `src/parser/statements/visible.rs:18-34` -/
def Visible.parseIn (expr : Token → Prog Expr) (loops : Nat) (first : Token) : Prog Visible := do
  let expressions ← Visible.parseExpressionsIn expr loops
  let exclamationMark ← nextIfTokenTypeEq .exclamationMark
  pure { visibleToken := first, expressions := expressions, exclamationMark := exclamationMark }

/-- `FoundYr::parse`, `src/parser/statements/found_yr.rs:22-36` -/
def FoundYr.parseIn (expr : Token → Prog Expr) (first : Token) : Prog FoundYr := do
  match ← next with
  | none => fail (.missingToken first)
  | some token =>
    let expression ← expr token
    pure { foundYrToken := first, expression := expression }

/-- `VariableAssignment::parse`, `src/parser/statements/assignment.rs:111-137` -/
def VariableAssignment.parseIn (expr : Token → Prog Expr) (identifier : VariableAccess) : Prog VariableAssignment := do
  match ← next with
  | none => fail (.variableAssignment (.missingR identifier.lastToken))
  | some rToken =>
    if rToken.isKeyword .R then
      match ← next with
      | none => fail (.variableAssignment (.expectedValue rToken))
      | some token =>
        let value ← expr token
        pure { variableAccess := identifier, expression := value, rToken := rToken }
    else fail (.variableAssignment (.missingR identifier.lastToken))

/-- `BukkitSetSlot::parse`, `src/parser/statements/bukkit_set_slot.rs:22-68` -/
def BukkitSetSlot.parseIn (expr : Token → Prog Expr) (bukkit : VariableAccess) : Prog BukkitSetSlot := do
  match ← next with
  | none => fail (.unexpectedToken bukkit.lastToken)
  | some hasAToken =>
    if hasAToken.isKeyword .HAS_A then
      match ← next with
      | none => fail (.variableAssignment (.expectedValue hasAToken))
      | some token =>
        let slotName ← Identifier.parse token
        match ← next with
        | none => fail (.missingToken slotName.name)
        | some itzToken =>
          if itzToken.isKeyword .ITZ then
            match ← next with
            | none => fail (.missingToken itzToken)
            | some token =>
              let value ← expr token
              pure { bukkit := bukkit, slotName := slotName, value := value }
          else fail (.unexpectedToken itzToken)
    else fail (.unexpectedToken bukkit.lastToken)

/-- The loop of `IIz::parse`, `src/parser/statements/i_is.rs:51-70` -/
def IIz.parseArgumentsIn (expr : Token → Prog Expr) : (loops : Nat) → Prog (List Expr)
  | 0 => .outOfFuel
  | loops + 1 => do
    match ← nextIf (Token.isKeyword .YR) with
    | none => pure []
    | some yrToken =>
      match ← next with
      | none => fail (.iIz (.missingArgument yrToken))
      | some token =>
        let e ← expr token
        match ← nextIf (Token.isKeyword .AN) with
        | none => pure [e]
        | some _ =>
          let more ← IIz.parseArgumentsIn expr loops
          pure (e :: more)

/-- `IIz::parse`, `src/parser/statements/i_is.rs:42-85` -/
def IIz.parseIn (expr : Token → Prog Expr) (loops : Nat) (first : Token) : Prog IIz := do
  match ← next with
  | none => fail (.iIz (.missingName first))
  | some token =>
    let name ← VariableAccess.parse loops token
    let arguments ← IIz.parseArgumentsIn expr loops
    match ← next with
    | none => fail (.iIz (.missingMkay first))
    | some token =>
      if token.isKeyword .MKAY then
        pure { iIzToken := first, name := name, arguments := arguments }
      else fail (.iIz (.missingMkay token))

/-- `parse_conditional`, `src/parser/statements/im_in_yr.rs:191-227` -/
def parseConditionalIn (expr : Token → Prog Expr) : Prog (Option LoopCondition) := do
  match ← nextIf (fun t => t.isKeyword .TIL || t.isKeyword .WILE) with
  | none => pure none
  | some token =>
    match ← next with
    | none => fail (.imInYr (.missingConditionalExpression token))
    | some first =>
      let e ← expr first
      if token.isKeyword .TIL then pure (some (.til e)) else pure (some (.wile e))

/-- `ImInYr::parse`, `src/parser/statements/im_in_yr.rs:142-188` -/
def parseImInYrIn (block : (Token → Bool) → Prog Block) (expr : Token → Prog Expr) (loops : Nat)
    (first : Token) : Prog Node := do
  match ← next with
  | none => fail (.imInYr (.missingStartLabel first))
  | some label =>
    if label.isIdentifier then
      let onIteration ← parseIterationOperation loops
      let condition ← parseConditionalIn expr
      nextStatementShouldBeEmpty
      let codeBlock ← block stopLoop
      match ← next with
      | none => fail (.imInYr (.missingImOuttaYr first))
      | some imOuttaYr =>
        match ← next with
        | none => fail (.imInYr (.missingEndLabel imOuttaYr))
        | some endLabel =>
          if endLabel.isIdentifier then
            pure (.imInYr first label onIteration condition codeBlock endLabel)
          else fail (.imInYr (.invalidEndLabel endLabel))
    else fail (.imInYr (.invalidStartLabel label))

/-- The `OMG` loop of `Wtf::parse`, `src/parser/statements/wtf.rs:45-60` -/
def parseOmgsIn (block : (Token → Bool) → Prog Block) (expr : Token → Prog Expr) :
    (loops : Nat) → Prog (List WtfOmg)
  | 0 => .outOfFuel
  | loops + 1 => do
    match ← nextIf (Token.isKeyword .OMG) with
    | none => pure []
    | some omgToken =>
      match ← next with
      | none => fail (.missingToken omgToken)
      | some token =>
        let expression ← expr token
        nextStatementShouldBeEmpty
        let b ← block stopSwitch
        let more ← parseOmgsIn block expr loops
        pure (.mk omgToken expression b :: more)

/-- `Wtf::parse`, `src/parser/statements/wtf.rs:35-90` -/
def parseWtfIn (block : (Token → Bool) → Prog Block) (expr : Token → Prog Expr) (loops : Nat)
    (first : Token) : Prog Node := do
  match ← next with
  | none => fail (.oRly (.missingQuestionMark first))
  | some symbol =>
    if symbol.isQuestion then
      nextStatementShouldBeEmpty
      let omg ← parseOmgsIn block expr loops
      let omgWtf ← parseOmgWtf block
      match ← next with
      | none => fail (.missingBlockClosingToken first)
      | some token =>
        if token.isKeyword .OIC then
          nextStatementShouldBeEmpty
          pure (.wtf first omg omgWtf)
        else fail (.unexpectedToken token)
    else fail (.oRly (.missingQuestionMark first))

/-- The `MEBBE` loop of `ORly::parse`, `src/parser/statements/o_rly.rs:74-89` -/
def parseMebbesIn (block : (Token → Bool) → Prog Block) (expr : Token → Prog Expr) :
    (loops : Nat) → Prog (List Mebbe)
  | 0 => .outOfFuel
  | loops + 1 => do
    match ← nextIfTokenTypeEq (.keyword .MEBBE) with
    | none => pure []
    | some mebbeToken =>
      match ← next with
      | none => fail (.oRly (.missingMebbeExpression mebbeToken))
      | some token =>
        let condition ← expr token
        nextStatementShouldBeEmpty
        let b ← block stopIf
        let more ← parseMebbesIn block expr loops
        pure (.mk mebbeToken condition b :: more)

/-- `ORly::parse`, `src/parser/statements/o_rly.rs:52-118` -/
def parseORlyIn (block : (Token → Bool) → Prog Block) (expr : Token → Prog Expr) (loops : Nat)
    (first : Token) : Prog Node := do
  match ← next with
  | none => fail (.oRly (.missingQuestionMark first))
  | some symbol =>
    if symbol.isQuestion then
      nextStatementShouldBeEmpty
      let ifTrue ← parseYaRly block
      let mebbes ← parseMebbesIn block expr loops
      let ifFalse ← parseNoWai block
      match ← next with
      | none => fail (.missingBlockClosingToken first)
      | some token =>
        if token.isKeyword .OIC then pure (.oRly first ifTrue ifFalse mebbes)
        else fail (.unexpectedToken token)
    else fail (.oRly (.missingQuestionMark first))

/-- The first part of `parse_statement`, `src/parser/statements/mod.rs:207-221` -/
def parseAccessStatementIn (expr : Token → Prog Expr) (loops : Nat) (first : Token) : Prog Node := do
  let variableAccess ← VariableAccess.parse loops first
  match ← peek with
  | none => pure (.expression (.value (.variableAccess variableAccess)))
  | some t =>
    match t.tokenType with
    | .keyword .R => do
      let n ← VariableAssignment.parseIn expr variableAccess
      pure (.variableAssignment n)
    | .keyword .HAS_A => do
      let n ← BukkitSetSlot.parseIn expr variableAccess
      pure (.bukkitSetSlot n)
    | _ => .panic .unreachableStatement

/-- `parse_statement`, `src/parser/statements/mod.rs:202-252` -/
def statementBody (block : (Token → Bool) → Prog Block) (expr : Token → Prog Expr) (loops : Nat)
    (first : Token) : Prog Node :=
  if VariableAccess.isValid first then parseAccessStatementIn expr loops first
  else
    match first.tokenType with
    | .keyword .I_HAS_A => do
      let n ← IHasA.parseIn expr first
      pure (.iHasA n)
    | .keyword .VISIBLE => do
      let n ← Visible.parseIn expr loops first
      pure (.visible n)
    | .keyword .GIMMEH => do
      let n ← Gimmeh.parse loops first
      pure (.gimmeh n)
    | .keyword .FOUND_YR => do
      let n ← FoundYr.parseIn expr first
      pure (.foundYr n)
    | .keyword .HAI => do
      let n ← Hai.parse first
      pure (.hai n)
    | .keyword .KTHXBYE => pure (.kThxBye first)
    | .keyword .GTFO => pure (.gtfo first)
    | .keyword .I_IZ => do
      let n ← IIz.parseIn expr loops first
      pure (.iIz n)
    | .keyword .IM_IN_YR => parseImInYrIn block expr loops first
    | .keyword .HOW_IZ_I => parseHowIzI block loops first
    | .keyword .WTF => parseWtfIn block expr loops first
    | .keyword .O_RLY => parseORlyIn block expr loops first
    | _ => do
      let e ← expr first
      pure (.expression e)

/-- One round of the loop of `parse_block`, `src/parser/blocks.rs:138-153`; `statement` stands for the calls of
`parse_statement` and `more` for the other rounds. -/
def blockRound (statement : Token → Prog Node) (more : Prog Block) (stop : Token → Bool) : Prog Block := do
  let nodes ← do
    match ← next with
    | some token =>
      match ← (statement token).toResult with
      | .ok node => pure [node]
      | .error e => pure [Node.astError e]
    | none => pure []
  let errors ← do
    match ← nextStatementShouldBeEmpty.toResult with
    | .ok _ => pure []
    | .error e => pure [Node.astError e]
  match ← peek with
  | none => pure (nodes ++ errors)
  | some token =>
    if stop token then pure (nodes ++ errors)
    else
      let more ← more
      pure (nodes ++ errors ++ more)

/-- The loop of `parse_block`, `src/parser/blocks.rs:137-154` -/
def blockLoop (statement : Token → Prog Node) : (loops : Nat) → (stop : Token → Bool) → Prog Block
  | 0, _ => .outOfFuel
  | loops + 1, stop => blockRound statement (blockLoop statement loops stop) stop

/-- `ASTExpression::parse`, `src/parser/expression/mod.rs:292-361`, on a stack with room for `depth` calls. -/
def parseExprIn (loops : Nat) : (depth : Nat) → Token → Prog Expr
  | 0 => fun _ => .outOfFuel
  | depth + 1 => exprBody (parseExprIn loops depth) loops

/-- `parse_block`, `src/parser/blocks.rs:132-156`, on a stack with room for `depth` calls. -/
def parseBlockIn (loops : Nat) : (depth : Nat) → (stop : Token → Bool) → Prog Block
  | 0 => fun _ => .outOfFuel
  | depth + 1 => blockLoop (statementBody (parseBlockIn loops depth) (parseExprIn loops depth) loops) loops

/-- `parse`, `src/parser/mod.rs:18-21`, on a stack with room for `depth` calls of `ASTExpression::parse` and
`parse_block`, and with at most `loops` rounds of every loop. -/
def parseOnStackWith (loops depth : Nat) (tokens : List Token) : Out Block :=
  match (parseBlockIn loops depth stopRoot).run StatementIterator.ops (StatementIterator.new tokens) with
  | .ok block _ => .ok block
  | .err e _ => .ok [.astError e]
  | .panic p => .panic p
  | .outOfFuel => .outOfFuel

/-- `parse`, `src/parser/mod.rs:18-21`, on a stack with room for `depth` calls of `ASTExpression::parse` and
`parse_block`. `outOfFuel` means that the stack overflows: the bound on the loops is large enough (C70). -/
def parseOnStack (depth : Nat) (tokens : List Token) : Out Block := parseOnStackWith (parseFuel tokens) depth tokens

/-- The part of `StatementIterator::next` that runs when nothing has been peeked,
`src/parser/statement_iterator.rs:112-128`, on a stack with room for `depth` calls of `next`: the one in line 119 is a
call of the function to itself. `none` means that the stack overflows. -/
def StatementIterator.nextRawIn : (depth : Nat) → List Token → Int → Option (Option Token × List Token × Int)
  | 0, _, _ => none
  | _ + 1, [], line => some (none, [], line)
  | depth + 1, t :: rest, line =>
    if t.tokenType = .comma then some (none, t :: rest, line)
    else if t.tokenType = .ellipsis ∧ t.line = line then nextRawIn depth rest (lineOfNext rest line)
    else if t.line = line then some (some t, rest, line)
    else some (none, t :: rest, line)

/-! ## These are the functions of the model -/

theorem parseExpr_eq (n : Nat) : parseExpr (n + 1) = exprBody (parseExpr n) n := by
  funext t; rfl

theorem IHasA.parse_eq (n : Nat) (t : Token) : IHasA.parse n t = IHasA.parseIn (parseExpr n) t := rfl

theorem Visible.parseExpressions_eq (n m : Nat) :
    Visible.parseExpressions n m = Visible.parseExpressionsIn (parseExpr n) m := by
  induction m with
  | zero => rfl
  | succ m ih => rw [Visible.parseExpressions, Visible.parseExpressionsIn, ih]; rfl

theorem Visible.parse_eq (n : Nat) (t : Token) : Visible.parse n t = Visible.parseIn (parseExpr n) n t := by
  rw [Visible.parse, Visible.parseIn, Visible.parseExpressions_eq]

theorem FoundYr.parse_eq (n : Nat) (t : Token) : FoundYr.parse n t = FoundYr.parseIn (parseExpr n) t := rfl

theorem VariableAssignment.parse_eq (n : Nat) (v : VariableAccess) :
    VariableAssignment.parse n v = VariableAssignment.parseIn (parseExpr n) v := rfl

theorem BukkitSetSlot.parse_eq (n : Nat) (v : VariableAccess) :
    BukkitSetSlot.parse n v = BukkitSetSlot.parseIn (parseExpr n) v := rfl

theorem IIz.parseArguments_eq (n m : Nat) :
    IIz.parseArguments n m = IIz.parseArgumentsIn (parseExpr n) m := by
  induction m with
  | zero => rfl
  | succ m ih => rw [IIz.parseArguments, IIz.parseArgumentsIn, ih]; rfl

theorem IIz.parse_eq (n : Nat) (t : Token) : IIz.parse n t = IIz.parseIn (parseExpr n) n t := by
  rw [IIz.parse, IIz.parseIn, IIz.parseArguments_eq]; rfl

theorem parseConditional_eq (n : Nat) : parseConditional n = parseConditionalIn (parseExpr n) := rfl

theorem parseImInYr_eq (block : (Token → Bool) → Prog Block) (n : Nat) (t : Token) :
    parseImInYr block n t = parseImInYrIn block (parseExpr n) n t := rfl

theorem parseOmgs_eq (block : (Token → Bool) → Prog Block) (n m : Nat) :
    parseOmgs block n m = parseOmgsIn block (parseExpr n) m := by
  induction m with
  | zero => rfl
  | succ m ih => rw [parseOmgs, parseOmgsIn, ih]; rfl

theorem parseWtf_eq (block : (Token → Bool) → Prog Block) (n : Nat) (t : Token) :
    parseWtf block n t = parseWtfIn block (parseExpr n) n t := by
  rw [parseWtf, parseWtfIn, parseOmgs_eq]; rfl

theorem parseMebbes_eq (block : (Token → Bool) → Prog Block) (n m : Nat) :
    parseMebbes block n m = parseMebbesIn block (parseExpr n) m := by
  induction m with
  | zero => rfl
  | succ m ih => rw [parseMebbes, parseMebbesIn, ih]; rfl

theorem parseORly_eq (block : (Token → Bool) → Prog Block) (n : Nat) (t : Token) :
    parseORly block n t = parseORlyIn block (parseExpr n) n t := by
  rw [parseORly, parseORlyIn, parseMebbes_eq]; rfl

theorem parseAccessStatement_eq (n : Nat) (t : Token) :
    parseAccessStatement n t = parseAccessStatementIn (parseExpr n) n t := rfl

theorem parseStatement_eq (block : (Token → Bool) → Prog Block) (n : Nat) (t : Token) :
    parseStatement block n t = statementBody block (parseExpr n) n t := by
  rw [parseStatement, statementBody, Visible.parse_eq, IIz.parse_eq, parseWtf_eq, parseORly_eq]
  rfl

theorem parseBlock_eq (n : Nat) (stop : Token → Bool) :
    parseBlock (n + 1) stop = blockRound (statementBody (parseBlock n) (parseExpr n) n) (parseBlock n stop) stop := by
  rw [parseBlock]
  have := parseStatement_eq (parseBlock n) n
  rw [← funext this]
  rfl

end Lol
