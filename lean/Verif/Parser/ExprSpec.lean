import Verif.Parser.Ast

/-!
# The expression grammar (specification)

`toks` lists the tokens of a syntax tree from left to right; `WF` says that the tokens have the types that the
grammar asks for; `Follow e rest` says that `rest` cannot extend the expression `e`.
-/

namespace Lol

/-- The token is an identifier. -/
def Token.IsIdent (t : Token) : Prop := ∃ name, t.tokenType = .identifier name

/-- The token is the keyword `k`. -/
def Token.Is (k : Keyword) (t : Token) : Prop := t.tokenType = .keyword k

instance (k : Keyword) (t : Token) : Decidable (t.Is k) := inferInstanceAs (Decidable (_ = _))

instance (t : Token) : Decidable t.IsIdent :=
  match h : t.tokenType with
  | .identifier name => isTrue ⟨name, h⟩
  | .keyword _ | .symbol _ | .value _ | .commentSingleLine _ | .commentMultiLine _ | .bukkitSlotAccess
  | .ellipsis | .comma | .exclamationMark | .questionMark =>
    isFalse (by rintro ⟨n, hn⟩; rw [h] at hn; cases hn)

/-! ## Identifiers and variable accesses -/

/-- Tokens of an identifier. -/
def Identifier.toks (i : Identifier) : List Token := i.srs.toList ++ [i.name]

/-- An identifier token, after `SRS` or not. -/
def Identifier.WF (i : Identifier) : Prop := i.name.IsIdent ∧ ∀ t ∈ i.srs, t.Is .SRS

/-- Tokens of a slot access. -/
def VariableAccessSlot.toks (s : VariableAccessSlot) : List Token := s.slotAccessToken :: s.identifier.toks

/-- `'Z` and an identifier. -/
def VariableAccessSlot.WF (s : VariableAccessSlot) : Prop :=
  s.slotAccessToken.tokenType = .bukkitSlotAccess ∧ s.identifier.WF

/-- Tokens of a variable access. -/
def VariableAccess.toks (v : VariableAccess) : List Token := v.identifier.toks ++ v.accesses.flatMap (·.toks)

/-- An identifier and any number of slot accesses. -/
def VariableAccess.WF (v : VariableAccess) : Prop := v.identifier.WF ∧ ∀ s ∈ v.accesses, s.WF

/-- The tokens do not go on with `'Z`. -/
def NoSlot (rest : List Token) : Prop := ∀ t r, rest = t :: r → t.tokenType ≠ .bukkitSlotAccess

/-! ## Operators -/

/-- The keyword that names a binary operator. -/
def BinaryOpt.keyword : BinaryOpt → Keyword
  | eitherOf _ => .EITHER_OF
  | wonOf _ => .WON_OF
  | sumOf _ => .SUM_OF
  | diffOf _ => .DIFF_OF
  | produktOf _ => .PRODUKT_OF
  | quoshuntOf _ => .QUOSHUNT_OF
  | modOf _ => .MOD_OF
  | biggrOf _ => .BIGGR_OF
  | smallrOf _ => .SMALLR_OF
  | bothSaem _ => .BOTH_SAEM
  | bothOf _ => .BOTH_OF
  | diffrint _ => .DIFFRINT

/-- The keyword that names a unary operator. -/
def UnaryOpt.keyword : UnaryOpt → Keyword
  | not _ => .NOT

/-- The keyword that names an operator with any number of operands. -/
def NaryOpt.keyword : NaryOpt → Keyword
  | allOf _ => .ALL_OF
  | smoosh _ => .SMOOSH
  | anyOf _ => .ANY_OF

/-! ## Expressions -/

/-- Tokens of a value. -/
def ExprValue.toks : ExprValue → List Token
  | .variableAccess v => v.toks
  | .literal t => [t]

/-- A literal: a value token, or the keyword `NOOB`. -/
def Token.IsLiteral (t : Token) : Prop := (∃ v, t.tokenType = .value v) ∨ t.Is .NOOB

mutual

/-- Tokens of an expression. -/
def Expr.toks : Expr → List Token
  | .value v => v.toks
  | .unary op e => op.token :: e.toks
  | .binary op l an r => op.token :: (l.toks ++ (an.toList ++ r.toks))
  | .nary op es mkay => op.token :: (toksOperands es ++ mkay.toList)

/-- Tokens of a list of operands. -/
def toksOperands : List Operand → List Token
  | [] => []
  | .mk e an :: es => e.toks ++ (an.toList ++ toksOperands es)

end

/-- The expression ends with an `ALL OF`, `ANY OF` or `SMOOSH` that is not closed by `MKAY`. -/
def Expr.Open : Expr → Prop
  | .value _ => False
  | .unary _ e => e.Open
  | .binary _ _ _ r => r.Open
  | .nary _ _ mkay => mkay = none

/-- The expression ends with a variable access. -/
def Expr.EndsInAccess : Expr → Prop
  | .value (.variableAccess _) => True
  | .value (.literal _) => False
  | .unary _ e => e.EndsInAccess
  | .binary _ _ _ r => r.EndsInAccess
  | .nary _ _ _ => False

mutual

/-- Well formed expressions. An operation without `MKAY` can only stand at the end. -/
def Expr.WF : Expr → Prop
  | .value (.variableAccess v) => v.WF
  | .value (.literal t) => t.IsLiteral
  | .unary op e => op.token.Is op.keyword ∧ e.WF
  | .binary op l an r => op.token.Is op.keyword ∧ l.WF ∧ ¬ l.Open ∧ (∀ t ∈ an, t.Is .AN) ∧ r.WF
  | .nary op es mkay => op.token.Is op.keyword ∧ wfOperands es mkay.isSome ∧ ∀ t ∈ mkay, t.Is .MKAY

/-- Well formed lists of operands; `closed` says whether `MKAY` follows. Operands may be separated by `AN`,
and `AN` may also follow the last one. -/
def wfOperands : List Operand → (closed : Bool) → Prop
  | [], _ => True
  | .mk e an :: es, closed => e.WF ∧ (∀ t ∈ an, t.Is .AN) ∧
      (e.Open → an = none ∧ es = [] ∧ closed = false) ∧ wfOperands es closed

end

/-- `rest` cannot extend the expression: an operation that is not closed by `MKAY` is at the end of the
statement, and a variable access is not followed by `'Z`. -/
def Expr.Follow (e : Expr) (rest : List Token) : Prop :=
  (e.Open → rest = []) ∧ (e.EndsInAccess → NoSlot rest)

end Lol
