import Verif.Parser.Ast

/-!
# `tokens()` and `range()`: model of the token iterators of the syntax tree

The iterators hold a reference to the node they run over and a state. `next` calls itself after some changes of
the state, so it gets a recursion bound, as the parser does. `&Token` is `Token`, and the new state of the iterator
is returned with the result.
-/

namespace Lol

/-- `IdentifierTokensIteratorState`, `src/parser/expression/identifier_iterator.rs:4-8` -/
inductive IdentifierIterState where
  | start
  | hasUsedSrs
  | done
  deriving DecidableEq, Repr

/-- `IdentifierTokensIterator`, `src/parser/expression/identifier_iterator.rs:10-13` -/
structure IdentifierIter where
  identifier : Identifier
  state : IdentifierIterState
  deriving DecidableEq, Repr

/-- `IdentifierTokensIterator::new`, `src/parser/expression/identifier_iterator.rs:16-21`, and
`Identifier::tokens`, `identifier.rs:26-28` -/
def Identifier.tokens (i : Identifier) : IdentifierIter := { identifier := i, state := .start }

/-- `IdentifierTokensIterator::next`, `src/parser/expression/identifier_iterator.rs:27-45` -/
def IdentifierIter.next (it : IdentifierIter) : Option Token × IdentifierIter :=
  match it.state with
  | .start =>
    match it.identifier.srs with
    | some srs => (some srs, { it with state := .hasUsedSrs })
    | none => (some it.identifier.name, { it with state := .done })
  | .hasUsedSrs => (some it.identifier.name, { it with state := .done })
  | .done => (none, it)

/-- `VariableAccessSlotIteratorState`, `src/parser/expression/variable_access_iterator.rs:7-11` -/
inductive SlotIterState where
  | slot
  | identifier (it : IdentifierIter)
  | stop
  deriving DecidableEq, Repr

/-- `VariableAccessSlotIterator`, `src/parser/expression/variable_access_iterator.rs:13-16` -/
structure SlotIter where
  accessSlot : VariableAccessSlot
  state : SlotIterState
  deriving DecidableEq, Repr

/-- `VariableAccessSlotIterator::new`, `src/parser/expression/variable_access_iterator.rs:19-24`, and
`VariableAccessSlot::tokens`, `variable_access.rs:20-22` -/
def VariableAccessSlot.tokens (s : VariableAccessSlot) : SlotIter := { accessSlot := s, state := .slot }

/-- `VariableAccessSlotIterator::next`, `src/parser/expression/variable_access_iterator.rs:30-46` -/
def SlotIter.next (it : SlotIter) : Option Token × SlotIter :=
  match it.state with
  | .slot =>
    (some it.accessSlot.slotAccessToken, { it with state := .identifier it.accessSlot.identifier.tokens })
  | .identifier sub =>
    match sub.next with
    | (some t, sub) => (some t, { it with state := .identifier sub })
    | (none, _) => (none, { it with state := .stop })
  | .stop => (none, it)

/-- `VariableAccessTokenIteratorState`, `src/parser/expression/variable_access_iterator.rs:49-54` -/
inductive AccessIterState where
  | start
  | identifier (it : IdentifierIter)
  | access (index : Nat) (it : Option SlotIter)
  | done
  deriving DecidableEq, Repr

/-- `VariableAccessIterator`, `src/parser/expression/variable_access_iterator.rs:56-59` -/
structure AccessIter where
  variableAccess : VariableAccess
  state : AccessIterState
  deriving DecidableEq, Repr

/-- `VariableAccessIterator::new`, `src/parser/expression/variable_access_iterator.rs:62-67`, and
`VariableAccess::tokens`, `variable_access.rs:61-63` -/
def VariableAccess.tokens (v : VariableAccess) : AccessIter := { variableAccess := v, state := .start }

/-- `ident_iter.as_mut().and_then(|t| t.next())`, `src/parser/expression/variable_access_iterator.rs:87` -/
def SlotIter.nextOpt : Option SlotIter → Option Token × Option SlotIter
  | none => (none, none)
  | some it => ((it.next).1, some (it.next).2)

/-- `VariableAccessIterator::next`, `src/parser/expression/variable_access_iterator.rs:73-106` -/
def AccessIter.next : Nat → AccessIter → Out (Option Token × AccessIter)
  | 0, _ => .outOfFuel
  | n + 1, it =>
    match it.state with
    | .start => AccessIter.next n { it with state := .identifier it.variableAccess.identifier.tokens }
    | .identifier sub =>
      match sub.next with
      | (some t, sub) => .ok (some t, { it with state := .identifier sub })
      | (none, _) => AccessIter.next n { it with state := .access 0 none }
    | .access index sub =>
      match SlotIter.nextOpt sub with
      | (some t, sub) => .ok (some t, { it with state := .access index sub })
      | (none, _) =>
        match it.variableAccess.accesses[index]? with
        | some slot => AccessIter.next n { it with state := .access (index + 1) (some slot.tokens) }
        | none => .ok (none, { it with state := .done })
    | .done => .ok (none, it)

/-- `ASTExpressionValueState`, `src/parser/expression/mod.rs:30-34` -/
inductive ValueIterState where
  | start
  | variableAccess (it : AccessIter)
  | stop
  deriving DecidableEq, Repr

/-- `ASTExpressionValueIterator`, `src/parser/expression/mod.rs:39-42` -/
structure ValueIter where
  value : ExprValue
  state : ValueIterState
  deriving DecidableEq, Repr

/-- `ASTExpressionValueIterator::new`, `src/parser/expression/mod.rs:45-50`, and
`ASTExpressionValue::tokens`, `mod.rs:102-104` -/
def ExprValue.tokens (v : ExprValue) : ValueIter := { value := v, state := .start }

/-- `ASTExpressionValueIterator::next`, `src/parser/expression/mod.rs:56-80` -/
def ValueIter.next : Nat → ValueIter → Out (Option Token × ValueIter)
  | 0, _ => .outOfFuel
  | n + 1, it =>
    match it.state with
    | .start =>
      match it.value with
      | .variableAccess v => ValueIter.next n { it with state := .variableAccess v.tokens }
      | .literal t => .ok (some t, { it with state := .stop })
    | .variableAccess sub =>
      match sub.next n with
      | .ok (some t, sub) => .ok (some t, { it with state := .variableAccess sub })
      | .ok (none, _) => ValueIter.next n { it with state := .stop }
      | .panic p => .panic p
      | .outOfFuel => .outOfFuel
    | .stop => .ok (none, it)

mutual

/-- `ASTExpressionIterator`, `src/parser/expression/mod.rs:135-138` -/
inductive ExprIter where
  | mk (expression : Expr) (state : ExprIterState)

/-- `ASTExpressionIteratorState`, `src/parser/expression/mod.rs:123-130` -/
inductive ExprIterState where
  | start
  | binary (it : BinaryIter)
  | unary (it : UnaryIter)
  | nary (it : NaryIter)
  | value (it : ValueIter)
  | stop

/-- `BinaryOperationIterator`, `src/parser/expression/binary_operation.rs:124-127`; the fields of the operation are
listed. -/
inductive BinaryIter where
  | mk (operator : BinaryOpt) (left : Expr) (an : Option Token) (right : Expr) (state : BinaryIterState)

/-- `BinaryOperationIteratorState`, `src/parser/expression/binary_operation.rs:113-119` -/
inductive BinaryIterState where
  | start
  | left (it : ExprIter)
  | anToken
  | right (it : ExprIter)
  | stop

/-- `UnaryOperationIterator`, `src/parser/expression/unary_operation.rs:41-44`; the fields of the operation are
listed. -/
inductive UnaryIter where
  | mk (operator : UnaryOpt) (expression : Expr) (state : UnaryIterState)

/-- `UnaryOperationIteratorState`, `src/parser/expression/unary_operation.rs:32-36` -/
inductive UnaryIterState where
  | start
  | operand (it : ExprIter)
  | stop

/-- `NaryOperationIterator`, `src/parser/expression/nary_operations.rs:59-62`; the fields of the operation are
listed. -/
inductive NaryIter where
  | mk (operator : NaryOpt) (expressions : List Operand) (mkay : Option Token) (state : NaryIterState)

/-- `NaryOperationIteratorState`, `src/parser/expression/nary_operations.rs:49-54`. The pair of the variant
`Operand((usize, Option<NaryOperationOperandIterator>))` is split on the option. -/
inductive NaryIterState where
  | start
  | operandNone (nextIndex : Nat)
  | operandSome (nextIndex : Nat) (it : OperandIter)
  | mkay
  | stop

/-- `NaryOperationOperandIterator`, `src/parser/expression/nary_operations.rs:113-116` -/
inductive OperandIter where
  | mk (operand : Operand) (state : OperandIterState)

/-- `NaryOperationOperandIteratorState`, `src/parser/expression/nary_operations.rs:107-111` -/
inductive OperandIterState where
  | expression (it : ExprIter)
  | anToken
  | stop

end

/-- `ASTExpressionIterator::new`, `src/parser/expression/mod.rs:141-146`, and `ASTExpression::tokens`,
`mod.rs:266-268` -/
def Expr.tokens (e : Expr) : ExprIter := .mk e .start

/-- `NaryOperationOperandIterator::new`, `src/parser/expression/nary_operations.rs:119-124`, and
`NaryOperationOperand::tokens`, `nary_operations.rs:154-156` -/
def Operand.tokens : Operand → OperandIter
  | .mk e an => .mk (.mk e an) (.expression e.tokens)

mutual

/-- `ASTExpressionIterator::next`, `src/parser/expression/mod.rs:151-190` -/
def ExprIter.next : Nat → ExprIter → Out (Option Token × ExprIter)
  | 0, _ => .outOfFuel
  | n + 1, .mk e .start =>
    match e with
    | .binary op l an r => ExprIter.next n (.mk e (.binary (.mk op l an r .start)))
    | .unary op x => ExprIter.next n (.mk e (.unary (.mk op x .start)))
    | .nary op es mkay => ExprIter.next n (.mk e (.nary (.mk op es mkay .start)))
    | .value v => ExprIter.next n (.mk e (.value v.tokens))
  | n + 1, .mk e (.value it) =>
    match ValueIter.next n it with
    | .ok (some t, it) => .ok (some t, .mk e (.value it))
    | .ok (none, _) => .ok (none, .mk e .stop)
    | .panic p => .panic p
    | .outOfFuel => .outOfFuel
  | n + 1, .mk e (.binary it) =>
    match BinaryIter.next n it with
    | .ok (some t, it) => .ok (some t, .mk e (.binary it))
    | .ok (none, _) => .ok (none, .mk e .stop)
    | .panic p => .panic p
    | .outOfFuel => .outOfFuel
  | n + 1, .mk e (.unary it) =>
    match UnaryIter.next n it with
    | .ok (some t, it) => .ok (some t, .mk e (.unary it))
    | .ok (none, _) => .ok (none, .mk e .stop)
    | .panic p => .panic p
    | .outOfFuel => .outOfFuel
  | n + 1, .mk e (.nary it) =>
    match NaryIter.next n it with
    | .ok (some t, it) => .ok (some t, .mk e (.nary it))
    | .ok (none, _) => .ok (none, .mk e .stop)
    | .panic p => .panic p
    | .outOfFuel => .outOfFuel
  | _ + 1, .mk e .stop => .ok (none, .mk e .stop)

/-- `BinaryOperationIterator::next`, `src/parser/expression/binary_operation.rs:141-165` -/
def BinaryIter.next : Nat → BinaryIter → Out (Option Token × BinaryIter)
  | 0, _ => .outOfFuel
  | _ + 1, .mk op l an r .start => .ok (some op.token, .mk op l an r (.left l.tokens))
  | n + 1, .mk op l an r (.left it) =>
    match ExprIter.next n it with
    | .ok (some t, it) => .ok (some t, .mk op l an r (.left it))
    | .ok (none, _) => BinaryIter.next n (.mk op l an r .anToken)
    | .panic p => .panic p
    | .outOfFuel => .outOfFuel
  | n + 1, .mk op l an r .anToken =>
    match an with
    | some t => .ok (some t, .mk op l an r (.right r.tokens))
    | none => BinaryIter.next n (.mk op l an r (.right r.tokens))
  | n + 1, .mk op l an r (.right it) =>
    match ExprIter.next n it with
    | .ok (some t, it) => .ok (some t, .mk op l an r (.right it))
    | .ok (none, _) => BinaryIter.next n (.mk op l an r .stop)
    | .panic p => .panic p
    | .outOfFuel => .outOfFuel
  | _ + 1, .mk op l an r .stop => .ok (none, .mk op l an r .stop)

/-- `UnaryOperationIterator::next`, `src/parser/expression/unary_operation.rs:58-73` -/
def UnaryIter.next : Nat → UnaryIter → Out (Option Token × UnaryIter)
  | 0, _ => .outOfFuel
  | _ + 1, .mk op e .start => .ok (some op.token, .mk op e (.operand e.tokens))
  | n + 1, .mk op e (.operand it) =>
    match ExprIter.next n it with
    | .ok (some t, it) => .ok (some t, .mk op e (.operand it))
    | .ok (none, _) => .ok (none, .mk op e .stop)
    | .panic p => .panic p
    | .outOfFuel => .outOfFuel
  | _ + 1, .mk op e .stop => .ok (none, .mk op e .stop)

/-- `NaryOperationIterator::next`, `src/parser/expression/nary_operations.rs:76-104` -/
def NaryIter.next : Nat → NaryIter → Out (Option Token × NaryIter)
  | 0, _ => .outOfFuel
  | _ + 1, .mk op es mkay .start => .ok (some op.token, .mk op es mkay (.operandNone 0))
  | n + 1, .mk op es mkay (.operandNone index) =>
    match es[index]? with
    | some e => NaryIter.next n (.mk op es mkay (.operandSome (index + 1) e.tokens))
    | none => NaryIter.next n (.mk op es mkay .mkay)
  | n + 1, .mk op es mkay (.operandSome index it) =>
    match OperandIter.next n it with
    | .ok (some t, it) => .ok (some t, .mk op es mkay (.operandSome index it))
    | .ok (none, _) =>
      match es[index]? with
      | some e => NaryIter.next n (.mk op es mkay (.operandSome (index + 1) e.tokens))
      | none => NaryIter.next n (.mk op es mkay .mkay)
    | .panic p => .panic p
    | .outOfFuel => .outOfFuel
  | _ + 1, .mk op es mkay .mkay => .ok (mkay, .mk op es mkay .stop)
  | _ + 1, .mk op es mkay .stop => .ok (none, .mk op es mkay .stop)

/-- `NaryOperationOperandIterator::next`, `src/parser/expression/nary_operations.rs:130-144` -/
def OperandIter.next : Nat → OperandIter → Out (Option Token × OperandIter)
  | 0, _ => .outOfFuel
  | n + 1, .mk o (.expression it) =>
    match ExprIter.next n it with
    | .ok (some t, it) => .ok (some t, .mk o (.expression it))
    | .ok (none, _) => OperandIter.next n (.mk o .anToken)
    | .panic p => .panic p
    | .outOfFuel => .outOfFuel
  | _ + 1, .mk (.mk e an) .anToken => .ok (an, .mk (.mk e an) .stop)
  | _ + 1, .mk o .stop => .ok (none, .mk o .stop)

end

/-- `VariableAssignmentIteratorState`, `src/parser/statements/assignment.rs:9-15` -/
inductive AssignmentIterState where
  | start
  | variableAccess (it : AccessIter)
  | rToken
  | expression (it : ExprIter)
  | stop

/-- `VariableAssignmentIterator`, `src/parser/statements/assignment.rs:20-23` -/
structure AssignmentIter where
  variableAssignment : VariableAssignment
  state : AssignmentIterState

/-- `VariableAssignmentIterator::new`, `src/parser/statements/assignment.rs:26-31`, and
`VariableAssignment::tokens`, `assignment.rs:83-85` -/
def VariableAssignment.tokens (a : VariableAssignment) : AssignmentIter :=
  { variableAssignment := a, state := .start }

/-- `VariableAssignmentIterator::next`, `src/parser/statements/assignment.rs:37-65` -/
def AssignmentIter.next : Nat → AssignmentIter → Out (Option Token × AssignmentIter)
  | 0, _ => .outOfFuel
  | n + 1, it =>
    match it.state with
    | .start => AssignmentIter.next n { it with state := .variableAccess it.variableAssignment.variableAccess.tokens }
    | .variableAccess sub =>
      match sub.next n with
      | .ok (some t, sub) => .ok (some t, { it with state := .variableAccess sub })
      | .ok (none, _) => AssignmentIter.next n { it with state := .rToken }
      | .panic p => .panic p
      | .outOfFuel => .outOfFuel
    | .rToken =>
      .ok (some it.variableAssignment.rToken, { it with state := .expression it.variableAssignment.expression.tokens })
    | .expression sub =>
      match sub.next n with
      | .ok (some t, sub) => .ok (some t, { it with state := .expression sub })
      | .ok (none, _) => .ok (none, { it with state := .stop })
      | .panic p => .panic p
      | .outOfFuel => .outOfFuel
    | .stop => .ok (none, it)

/-- The results of the first `k` calls of an iterator's `next` (a caller's loop; not in `/repo/src/*.rs`). -/
def calls {σ : Type} (next : σ → Out (Option Token × σ)) : Nat → σ → Out (List (Option Token))
  | 0, _ => .ok []
  | k + 1, s =>
    match next s with
    | .ok (t, s) =>
      match calls next k s with
      | .ok ts => .ok (t :: ts)
      | .panic p => .panic p
      | .outOfFuel => .outOfFuel
    | .panic p => .panic p
    | .outOfFuel => .outOfFuel

/-! ## `range()` -/

/-- `Identifier::range`, `src/parser/expression/identifier.rs:16-24` -/
def Identifier.range (i : Identifier) : Position × Position :=
  (match i.srs with
    | some srs => srs.range.start
    | none => i.name.range.start,
   i.name.range.stop)

/-- `VariableAccess::range`, `src/parser/expression/variable_access.rs:50-58` -/
def VariableAccess.range (v : VariableAccess) : Position × Position :=
  let identifierRange := v.identifier.range
  let lastPosition := match v.accesses.getLast? with
    | some slot => slot.identifier.range.2
    | none => identifierRange.2
  (identifierRange.1, lastPosition)

/-- `ASTExpressionValue::range`, `src/parser/expression/mod.rs:94-99` -/
def ExprValue.range : ExprValue → Position × Position
  | .variableAccess v => v.range
  | .literal t => (t.range.start, t.range.stop)

mutual

/-- `ASTExpression::range`, `src/parser/expression/mod.rs:225-263` -/
def Expr.range : Expr → Position × Position
  | .binary op _ _ r => (op.token.range.start, r.range.2)
  | .unary op e => (op.token.range.start, e.range.2)
  | .nary op es mkay =>
    (op.token.range.start,
      (((mkay.map (·.range.stop)).or (lastAn es)).or (lastOperandStop es)).getD op.token.range.stop)
  | .value v => v.range

/-- `expressions.last().map(|operand| operand.an_token.map(|t| &t.range.1)).flatten()`,
`src/parser/expression/mod.rs:244-250` -/
def lastAn : List Operand → Option Position
  | [] => none
  | [.mk _ an] => an.map (·.range.stop)
  | _ :: es => lastAn es

/-- `expressions.last().map(|operand| operand.operand.range().1)`, `src/parser/expression/mod.rs:252-259` -/
def lastOperandStop : List Operand → Option Position
  | [] => none
  | [.mk e _] => some e.range.2
  | _ :: es => lastOperandStop es

end

/-- `VariableAssignment::range`, `src/parser/statements/assignment.rs:80-82` -/
def VariableAssignment.range (a : VariableAssignment) : Position × Position :=
  (a.variableAccess.range.1, a.expression.range.2)

end Lol
