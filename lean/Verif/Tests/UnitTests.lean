import Verif.Parser.Stmt
import Verif.Parser.Tokens

/-! # The unit tests of the crate, run on the model

All 47 `#[test]` functions of `/repo/src`, one `example` each, in the order of the files. They are tests of the
model against the expectations the authors of the crate wrote down, not proofs of properties: none is cited in
`MANIFEST.json`. -/

namespace Lol.UnitTests

/-- A token of `Token::make_line`, `src/lexer/tests.rs:46-59`. Simplified: the column is the index of the token in
its line and not the sum of the lengths before it (no parser looks at columns), and both ends of the range are the
same. -/
def token (line : Int) (index : Nat) (type : TokenType) : Token :=
  let p : Position := { line := line, column := index, bytes := index, chars := index }
  { range := { start := p, stop := p }, tokenType := type }

/-- `Token::make_line`, `src/lexer/tests.rs:46-59` (see `token`) -/
def makeLine (types : List TokenType) (line : Int) : List Token :=
  types.mapIdx fun i type => token line i type

/-- `Token::make_block`, `src/lexer/tests.rs:66-76` -/
def makeBlock (types : List (List TokenType)) : List (List Token) :=
  types.mapIdx fun i line => makeLine line i

/-- Indexing, `tokens[i]`; the default is not used -/
def nth (ts : List Token) (i : Nat) : Token := ts.getD i (token 0 0 .comma)

/-- Indexing, `block_tokens[i][j]`; the default is not used -/
def nth2 (ts : List (List Token)) (i j : Nat) : Token := nth (ts.getD i []) j

/-- The `Result` a parser returns for the tokens `ts`; `none` when it panics or runs out of fuel.
`StatementIterator::new`, `src/parser/statement_iterator.rs:15-24`, and the conversions at `:79-101` -/
def parsed {α : Type} (p : Prog α) (ts : List Token) : Option (Except ASTError α) :=
  match p.run StatementIterator.ops (StatementIterator.new ts) with
  | .ok a _ => some (.ok a)
  | .err e _ => some (.error e)
  | _ => none

/-- What `n` calls of `next` on the iterator over the tokens of a parsed value return. -/
def tokensOf {α σ : Type} (p : Prog α) (ts : List Token) (start : α → σ)
    (next : σ → Out (Option Token × σ)) (n : Nat) : Option (Out (List (Option Token))) :=
  match parsed p ts with
  | some (.ok a) => some (calls next n (start a))
  | _ => none

/-- `TokenType::Keyword(k)` -/
abbrev kw (k : Keyword) : TokenType := .keyword k

/-- `TokenType::Identifier(name)` -/
abbrev name (s : String) : TokenType := .identifier s.toList

/-- `TokenType::Value(TokenValue::String(s))` -/
abbrev str (s : String) : TokenType := .value (.string s.toList)

/-- `TokenType::Value(TokenValue::Number(NumberToken::Int(n)))` -/
abbrev int (n : Int) : TokenType := .value (.number (.int n))

/-- `TokenType::Value(TokenValue::NOOB)` -/
abbrev noob : TokenType := .value .noob

/-- `TokenType::Symbol("?")` -/
abbrev question : TokenType := .symbol ['?']

/-- `VariableAccess { identifier: Identifier { name: t, srs: None }, accesses: VecDeque::new() }` -/
abbrev access (t : Token) : VariableAccess := { identifier := { name := t, srs := none }, accesses := [] }

/-- `ASTExpression::Value(ASTExpressionValue::VariableAccess(..))` -/
abbrev var (t : Token) : Expr := .value (.variableAccess (access t))

/-- `ASTExpression::Value(ASTExpressionValue::LiteralValue(t))` -/
abbrev lit (t : Token) : Expr := .value (.literal t)

/-! ## `src/parser/blocks.rs` -/

def blockRoot : List (List Token) := makeBlock
  [[kw .I_HAS_A, name "Batata", kw .ITZ, noob], [kw .VISIBLE, noob], [name "Batata", kw .R, noob]]

-- `block_root`
example : parsed (parseBlock 20 stopRoot) blockRoot.flatten = some (.ok
    [.iHasA ⟨nth2 blockRoot 0 0, ⟨nth2 blockRoot 0 1, none⟩, some (.expression (lit (nth2 blockRoot 0 3)))⟩,
     .visible ⟨nth2 blockRoot 1 0, [lit (nth2 blockRoot 1 1)], none⟩,
     .variableAssignment ⟨access (nth2 blockRoot 2 0), lit (nth2 blockRoot 2 2), nth2 blockRoot 2 1⟩]) := rfl

def blockFunction : List (List Token) := makeBlock
  [[kw .I_HAS_A, name "Batata"],
   [name "Batata", kw .R, kw .SUM_OF, name "Batata", kw .AN, noob],
   [kw .FOUND_YR, name "Batata"],
   [kw .IF_U_SAY_SO],
   [kw .VISIBLE, noob]]

-- `block_function`
example : parsed (parseBlock 20 stopFunction) blockFunction.flatten =
    let ts := nth2 blockFunction
    some (.ok
      [.iHasA ⟨ts 0 0, ⟨ts 0 1, none⟩, none⟩,
       .variableAssignment ⟨access (ts 1 0),
         .binary (.sumOf (ts 1 2)) (var (ts 1 3)) (some (ts 1 4)) (lit (ts 1 5)), ts 1 1⟩,
       .foundYr ⟨ts 2 0, var (ts 2 1)⟩]) := rfl

/-! ## `src/parser/expression/identifier_iterator.rs` -/

/-- `iterator.next()` never panics here; this puts it in the shape `tokensOf` needs. -/
def identifierNext (it : IdentifierIter) : Out (Option Token × IdentifierIter) := .ok it.next

-- `no_srs`
example :
    let t := token 1 0 (name "VAR")
    tokensOf (Identifier.parse t) [] Identifier.tokens identifierNext 2 = some (.ok [some t, none]) := rfl

def withSrs : List Token := makeLine [kw .SRS, name "VAR"] 0

-- `with_srs`
example : tokensOf (Identifier.parse (nth withSrs 0)) withSrs.tail Identifier.tokens identifierNext 3 =
    some (.ok (withSrs.map some ++ [none])) := rfl

/-! ## `src/parser/expression/mod.rs` -/

def simple : List Token := makeLine [kw .SUM_OF, name "A", kw .AN, name "B"] 0

-- `iterator_simple`
example : tokensOf (parseExpr 20 (nth simple 0)) simple.tail Expr.tokens (ExprIter.next 40) 5 =
    some (.ok (simple.map some ++ [none])) := rfl

def unaryBinaryNary : List Token := makeLine
  [kw .NOT, kw .BOTH_OF, kw .SMOOSH, name "A", kw .AN, name "B", kw .AN, name "C", kw .MKAY, kw .AN, name "D"] 0

-- `iterator_unary_binary_nary`
example : tokensOf (parseExpr 20 (nth unaryBinaryNary 0)) unaryBinaryNary.tail Expr.tokens
    (ExprIter.next 40) 12 = some (.ok (unaryBinaryNary.map some ++ [none])) := rfl

def naryAccessValue : List Token := makeLine
  [kw .ALL_OF, kw .SRS, name "A", kw .AN, name "B", .bukkitSlotAccess, name "C", .bukkitSlotAccess, kw .SRS,
   name "D", kw .AN, str "VALUE", kw .MKAY] 0

-- `iterator_nary_access_value`
example : tokensOf (parseExpr 20 (nth naryAccessValue 0)) naryAccessValue.tail Expr.tokens
    (ExprIter.next 40) 14 = some (.ok (naryAccessValue.map some ++ [none])) := rfl

/-! ## `src/parser/expression/nary_operations.rs` -/

def smooshMkay : List Token := makeLine
  [kw .SMOOSH, name "A", kw .AN, name "B", kw .AN, name "C", kw .AN, name "D", kw .MKAY] 0

-- `iterator_smoosh_mkay`
example : tokensOf (parseNary (parseExpr 20) 20 (.smoosh (nth smooshMkay 0))) smooshMkay.tail Expr.tokens
    (ExprIter.next 40) 10 = some (.ok (smooshMkay.map some ++ [none])) := rfl

/-! ## `src/parser/expression/variable_access_iterator.rs` -/

-- `no_srs_no_access`
example :
    let t := token 1 0 (name "VAR")
    tokensOf (VariableAccess.parse 20 t) [] VariableAccess.tokens (AccessIter.next 20) 2 =
      some (.ok [some t, none]) := rfl

def twoAccesses : List Token := makeLine
  [name "Var", .bukkitSlotAccess, name "Access_1", .bukkitSlotAccess, name "Access_2"] 0

-- `no_srs_two_accesses`
example : tokensOf (VariableAccess.parse 20 (nth twoAccesses 0)) twoAccesses.tail VariableAccess.tokens
    (AccessIter.next 20) 6 = some (.ok (twoAccesses.map some ++ [none])) := rfl

def someSrs : List Token := makeLine
  [kw .SRS, name "Var", .bukkitSlotAccess, kw .SRS, name "Access_1", .bukkitSlotAccess, name "Access_2"] 0

-- `some_srs_two_accesses`
example : tokensOf (VariableAccess.parse 20 (nth someSrs 0)) someSrs.tail VariableAccess.tokens
    (AccessIter.next 20) 8 = some (.ok (someSrs.map some ++ [none])) := rfl

/-! ## `src/parser/statements/assignment.rs` -/

-- `normal`
example :
    let ts := makeLine [name "Batata", kw .R, noob] 1
    parsed (VariableAssignment.parse 20 (access (nth ts 0))) ts.tail =
      some (.ok ⟨access (nth ts 0), lit (nth ts 2), nth ts 1⟩) := rfl

-- `missing_r`
example :
    let ts := makeLine [name "Batata", noob] 1
    parsed (VariableAssignment.parse 20 (access (nth ts 0))) ts.tail =
      some (.error (.variableAssignment (.missingR (nth ts 0)))) := rfl

/-- `VariableAccess::parse` and then `VariableAssignment::parse`, as the two tests of the iterator do -/
def accessThenAssignment (first : Token) : Prog VariableAssignment := do
  let v ← VariableAccess.parse 20 first
  VariableAssignment.parse 20 v

-- `iterator_simple_assignment`
example :
    let ts := makeLine [name "A", kw .R, kw .NOOB] 0
    tokensOf (accessThenAssignment (nth ts 0)) ts.tail VariableAssignment.tokens (AssignmentIter.next 40) 4 =
      some (.ok (ts.map some ++ [none])) := rfl

-- `iterator_expression`
example :
    let ts := makeLine [name "A", kw .R, kw .EITHER_OF, kw .NOOB, kw .AN, kw .NOOB] 0
    tokensOf (accessThenAssignment (nth ts 0)) ts.tail VariableAssignment.tokens (AssignmentIter.next 40) 7 =
      some (.ok (ts.map some ++ [none])) := rfl

/-! ## `src/parser/statements/bukkit_set_slot.rs` -/

-- `normal`
example :
    let ts := makeLine [name "Batata", kw .HAS_A, name "Tomate", kw .ITZ, str "Cebola"] 1
    parsed (BukkitSetSlot.parse 20 (access (nth ts 0))) ts.tail =
      some (.ok ⟨access (nth ts 0), ⟨nth ts 2, none⟩, lit (nth ts 4)⟩) := rfl

/-! ## `src/parser/statements/found_yr.rs` -/

-- `simple`
example :
    let ts := makeLine [kw .GIMMEH, name "Batata"] 1
    parsed (FoundYr.parse 20 (nth ts 0)) ts.tail = some (.ok ⟨nth ts 0, var (nth ts 1)⟩) := rfl

-- `missing_token`
example :
    let t := token 1 0 (kw .GIMMEH)
    parsed (FoundYr.parse 20 t) [] = some (.error (.missingToken t)) := rfl

/-! ## `src/parser/statements/gimmeh.rs` -/

-- `simple`
example :
    let ts := makeLine [kw .GIMMEH, name "Batata"] 1
    parsed (Gimmeh.parse 20 (nth ts 0)) ts.tail = some (.ok ⟨nth ts 0, access (nth ts 1)⟩) := rfl

-- `invalid_identifier`
example :
    let ts := makeLine [kw .GIMMEH, noob] 1
    parsed (Gimmeh.parse 20 (nth ts 0)) ts.tail = some (.error (.unexpectedToken (nth ts 1))) := rfl

-- `missing_identifier`
example :
    let ts := makeLine [kw .GIMMEH] 1
    parsed (Gimmeh.parse 20 (nth ts 0)) ts.tail = some (.error (.missingToken (nth ts 0))) := rfl

/-! ## `src/parser/statements/hai.rs` -/

-- `simple`
example :
    let ts := makeLine [kw .HAI, .value (.number (.float ⟨false, 0x3FB33333⟩))] 1
    parsed (Hai.parse (nth ts 0)) ts.tail = some (.ok ⟨nth ts 0, ts.tail⟩) := rfl

/-! ## `src/parser/statements/how_is_i.rs` -/

-- `simple_no_arguments`
example :
    let ts := makeBlock [[kw .HOW_IZ_I, name "Some_Func"], [kw .VISIBLE, str "Hai!"], [kw .IF_U_SAY_SO]]
    parsed (parseHowIzI (parseBlock 20) 20 (nth2 ts 0 0)) ts.flatten.tail = some (.ok
      (.howIzI (nth2 ts 0 0) ⟨nth2 ts 0 1, none⟩ []
        [.visible ⟨nth2 ts 1 0, [lit (nth2 ts 1 1)], none⟩])) := rfl

-- `simple_some_arguments`
example :
    let ts := makeBlock
      [[kw .HOW_IZ_I, name "Some_Func", kw .YR, name "Arg1", kw .AN, kw .YR, name "Arg2", kw .AN, kw .YR,
        name "Arg3"],
       [kw .VISIBLE, str "Hai!"],
       [kw .IF_U_SAY_SO]]
    parsed (parseHowIzI (parseBlock 20) 20 (nth2 ts 0 0)) ts.flatten.tail = some (.ok
      (.howIzI (nth2 ts 0 0) ⟨nth2 ts 0 1, none⟩
        [⟨nth2 ts 0 3, none⟩, ⟨nth2 ts 0 6, none⟩, ⟨nth2 ts 0 9, none⟩]
        [.visible ⟨nth2 ts 1 0, [lit (nth2 ts 1 1)], none⟩])) := rfl

/-! ## `src/parser/statements/i_has_a.rs` -/

-- `missing_identifier`
example :
    let ts := makeLine [kw .I_HAS_A] 1
    parsed (IHasA.parse 20 (nth ts 0)) ts.tail = some (.error (.iHasA (.missingIdentifier (nth ts 0)))) := rfl

-- `invalid_identifier_noob`
example :
    let ts := makeLine [kw .I_HAS_A, noob] 1
    parsed (IHasA.parse 20 (nth ts 0)) ts.tail = some (.error (.iHasA (.invalidIdentifier (nth ts 1)))) := rfl

-- `invalid_identifier_string`
example :
    let ts := makeLine [kw .I_HAS_A, str "Batata"] 1
    parsed (IHasA.parse 20 (nth ts 0)) ts.tail = some (.error (.iHasA (.invalidIdentifier (nth ts 1)))) := rfl

-- `invalid_identifier_number`
example :
    let ts := makeLine [kw .I_HAS_A, int 123] 1
    parsed (IHasA.parse 20 (nth ts 0)) ts.tail = some (.error (.iHasA (.invalidIdentifier (nth ts 1)))) := rfl

-- `missing_itz`
example :
    let ts := makeLine [kw .I_HAS_A, name "Batata", kw .NOOB] 1
    parsed (IHasA.parse 20 (nth ts 0)) ts.tail = some (.error (.unexpectedToken (nth ts 2))) := rfl

-- `missing_value`
example :
    let ts := makeLine [kw .I_HAS_A, name "Batata", kw .ITZ] 1
    parsed (IHasA.parse 20 (nth ts 0)) ts.tail = some (.error (.iHasA (.expectedInitialValue (nth ts 2)))) := rfl

-- `invalid_value`
example :
    let ts := makeLine [kw .I_HAS_A, name "Batata", kw .ITZ, .symbol ['+']] 1
    parsed (IHasA.parse 20 (nth ts 0)) ts.tail = some (.error (.unexpectedToken (nth ts 3))) := rfl

-- `success_with_intial_value`
example :
    let ts := makeLine [kw .I_HAS_A, name "Batata", kw .ITZ, str "Tomate"] 1
    parsed (IHasA.parse 20 (nth ts 0)) ts.tail =
      some (.ok ⟨nth ts 0, ⟨nth ts 1, none⟩, some (.expression (lit (nth ts 3)))⟩) := rfl

-- `success_with_intial_type`
example :
    let ts := makeLine [kw .I_HAS_A, name "Batata", kw .ITZ, kw .YARN] 1
    parsed (IHasA.parse 20 (nth ts 0)) ts.tail =
      some (.ok ⟨nth ts 0, ⟨nth ts 1, none⟩, some (.type (.yarn (nth ts 3)))⟩) := rfl

/-! ## `src/parser/statements/i_is.rs` -/

-- `simple_no_arguments`
example :
    let ts := makeLine [kw .I_IZ, name "Some_Func", kw .MKAY] 0
    parsed (IIz.parse 20 (nth ts 0)) ts.tail = some (.ok ⟨nth ts 0, access (nth ts 1), []⟩) := rfl

-- `simple_some_arguments`
example :
    let ts := makeLine
      [kw .I_IZ, name "Some_Func", kw .YR, name "Batata", kw .AN, kw .YR, name "Tomate", kw .AN, kw .YR,
       kw .SUM_OF, name "Cebola", kw .AN, kw .NOOB, kw .MKAY] 0
    parsed (IIz.parse 20 (nth ts 0)) ts.tail = some (.ok ⟨nth ts 0, access (nth ts 1),
      [var (nth ts 3), var (nth ts 6),
       .binary (.sumOf (nth ts 9)) (var (nth ts 10)) (some (nth ts 11)) (lit (nth ts 12))]⟩) := rfl

/-! ## `src/parser/statements/im_in_yr.rs` -/

/-- The lines the three tests share: the body of the loop and its last line -/
def loopBody : List (List TokenType) :=
  [[kw .VISIBLE, str "Iteration", name "COUNT"],
   [name "COUNT", kw .R, kw .SUM_OF, name "COUNT", kw .AN, int 1],
   [kw .IM_OUTTA_YR, name "Batata"]]

/-- The block the three tests expect for `loopBody` -/
def loopNodes (ts : Nat → Nat → Token) : Block :=
  [.visible ⟨ts 1 0, [lit (ts 1 1), var (ts 1 2)], none⟩,
   .variableAssignment ⟨access (ts 2 0),
     .binary (.sumOf (ts 2 2)) (var (ts 2 3)) (some (ts 2 4)) (lit (ts 2 5)), ts 2 1⟩]

-- `no_iteration_operation`
example :
    let ts := makeBlock ([kw .IM_IN_YR, name "Batata"] :: loopBody)
    parsed (parseImInYr (parseBlock 20) 20 (nth2 ts 0 0)) ts.flatten.tail = some (.ok
      (.imInYr (nth2 ts 0 0) (nth2 ts 0 1) none none (loopNodes (nth2 ts)) (nth2 ts 3 1))) := rfl

-- `simple_iteration_uppin`
example :
    let ts := makeBlock ([kw .IM_IN_YR, name "Batata", kw .UPPIN, kw .YR, name "COUNT"] :: loopBody)
    parsed (parseImInYr (parseBlock 20) 20 (nth2 ts 0 0)) ts.flatten.tail = some (.ok
      (.imInYr (nth2 ts 0 0) (nth2 ts 0 1) (some ⟨.uppin (nth2 ts 0 2), access (nth2 ts 0 4)⟩) none
        (loopNodes (nth2 ts)) (nth2 ts 3 1))) := rfl

-- `simple_iteration_uppin_with_limit`
example :
    let ts := makeBlock
      ([kw .IM_IN_YR, name "Batata", kw .UPPIN, kw .YR, name "COUNT", kw .TIL, kw .BOTH_SAEM, name "COUNT",
        kw .AN, int 10] :: loopBody)
    parsed (parseImInYr (parseBlock 20) 20 (nth2 ts 0 0)) ts.flatten.tail = some (.ok
      (.imInYr (nth2 ts 0 0) (nth2 ts 0 1) (some ⟨.uppin (nth2 ts 0 2), access (nth2 ts 0 4)⟩)
        (some (.til (.binary (.bothSaem (nth2 ts 0 6)) (var (nth2 ts 0 7)) (some (nth2 ts 0 8))
          (lit (nth2 ts 0 9)))))
        (loopNodes (nth2 ts)) (nth2 ts 3 1))) := rfl

/-! ## `src/parser/statements/o_rly.rs` -/

-- `if_mebbe_else`
example :
    let ts := makeBlock
      [[kw .O_RLY, question], [kw .YA_RLY], [kw .VISIBLE, name "Batata"], [kw .MEBBE, str "SOME VALUE"],
       [kw .VISIBLE, noob], [kw .NO_WAI, .comma, kw .VISIBLE, int 10], [kw .OIC]]
    parsed (parseORly (parseBlock 20) 20 (nth2 ts 0 0)) ts.flatten.tail = some (.ok
      (.oRly (nth2 ts 0 0)
        (some (.mk (nth2 ts 1 0) [.visible ⟨nth2 ts 2 0, [var (nth2 ts 2 1)], none⟩]))
        (some (.mk (nth2 ts 5 0) [.visible ⟨nth2 ts 5 2, [lit (nth2 ts 5 3)], none⟩]))
        [.mk (nth2 ts 3 0) (lit (nth2 ts 3 1)) [.visible ⟨nth2 ts 4 0, [lit (nth2 ts 4 1)], none⟩]])) := rfl

-- `if_else`
example :
    let ts := makeBlock [[kw .O_RLY, question], [kw .NO_WAI, .comma, kw .VISIBLE, int 10], [kw .OIC]]
    parsed (parseORly (parseBlock 20) 20 (nth2 ts 0 0)) ts.flatten.tail = some (.ok
      (.oRly (nth2 ts 0 0) none
        (some (.mk (nth2 ts 1 0) [.visible ⟨nth2 ts 1 2, [lit (nth2 ts 1 3)], none⟩])) [])) := rfl

-- `missing_question_mark`
example :
    let ts := makeBlock [[kw .O_RLY], [kw .NO_WAI, .comma, kw .VISIBLE, int 10], [kw .OIC]]
    parsed (parseORly (parseBlock 20) 20 (nth2 ts 0 0)) ts.flatten.tail =
      some (.error (.oRly (.missingQuestionMark (nth2 ts 0 0)))) := rfl

/-! ## `src/parser/statements/visible.rs` -/

-- `success_hello_world`
example :
    let ts := makeLine [kw .VISIBLE, str "Hello, World!"] 1
    parsed (Visible.parse 20 (nth ts 0)) ts.tail = some (.ok ⟨nth ts 0, [lit (nth ts 1)], none⟩) := rfl

-- `success_hello_world_exclamation_mark`
example :
    let ts := makeLine [kw .VISIBLE, str "Hello, World!", .exclamationMark] 1
    parsed (Visible.parse 20 (nth ts 0)) ts.tail =
      some (.ok ⟨nth ts 0, [lit (nth ts 1)], some (nth ts 2)⟩) := rfl

-- `success_empty_expression`
example :
    let ts := makeLine [kw .VISIBLE] 1
    parsed (Visible.parse 20 (nth ts 0)) ts.tail = some (.ok ⟨nth ts 0, [], none⟩) := rfl

-- `success_empty_expression_with_exclamation_mark`
example :
    let ts := makeLine [kw .VISIBLE, .exclamationMark] 1
    parsed (Visible.parse 20 (nth ts 0)) ts.tail = some (.ok ⟨nth ts 0, [], some (nth ts 1)⟩) := rfl

-- `complex_expressions`
example :
    let ts := makeLine
      [kw .VISIBLE, kw .SMOOSH, str "Hello, World!", kw .AN, kw .SUM_OF, int 10, noob, name "Batata", kw .MKAY,
       kw .EITHER_OF, name "Tomate", kw .AN, noob, .exclamationMark] 1
    parsed (Visible.parse 20 (nth ts 0)) ts.tail = some (.ok ⟨nth ts 0,
      [.nary (.smoosh (nth ts 1))
         [.mk (lit (nth ts 2)) (some (nth ts 3)),
          .mk (.binary (.sumOf (nth ts 4)) (lit (nth ts 5)) none (lit (nth ts 6))) none,
          .mk (var (nth ts 7)) none] (some (nth ts 8)),
       .binary (.eitherOf (nth ts 9)) (var (nth ts 10)) (some (nth ts 11)) (lit (nth ts 12))],
      some (nth ts 13)⟩) := rfl

/-! ## `src/parser/statements/wtf.rs` -/

-- `simple_switch`
example :
    let ts := makeBlock
      [[kw .WTF, question], [kw .OMG, .value (.boolean true)], [kw .VISIBLE, name "WIN!!1!"],
       [kw .OMG, .value (.boolean false)], [kw .VISIBLE, name "FAIL :>("],
       [kw .OMGWTF, .comma, kw .VISIBLE, noob], [kw .OIC]]
    parsed (parseWtf (parseBlock 20) 20 (nth2 ts 0 0)) ts.flatten.tail = some (.ok
      (.wtf (nth2 ts 0 0)
        [.mk (nth2 ts 1 0) (lit (nth2 ts 1 1)) [.visible ⟨nth2 ts 2 0, [var (nth2 ts 2 1)], none⟩],
         .mk (nth2 ts 3 0) (lit (nth2 ts 3 1)) [.visible ⟨nth2 ts 4 0, [var (nth2 ts 4 1)], none⟩]]
        (some (.mk (nth2 ts 5 0) [.visible ⟨nth2 ts 5 2, [lit (nth2 ts 5 3)], none⟩])))) := rfl

end Lol.UnitTests
