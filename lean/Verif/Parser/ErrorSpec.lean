import Verif.Parser.FailSpec

/-!
# What the errors in a tree say (specification)
-/

namespace Lol

/-- The keywords of operators with one and with two operands. -/
def operandKeywords : List Keyword :=
  [.NOT, .BOTH_OF, .EITHER_OF, .WON_OF, .SUM_OF, .DIFF_OF, .PRODUKT_OF, .QUOSHUNT_OF, .MOD_OF, .BIGGR_OF, .SMALLR_OF,
    .BOTH_SAEM, .DIFFRINT]

/-- What an error says about the program, whose statements are `L`: where in a statement its token is, which token
this is, and what is missing or wrong. -/
def ErrorAt (L : List (List Token)) : ASTError → Prop
  /- a token of a statement -/
  | .unexpectedToken t => ∃ st ∈ L, t ∈ st
  /- the end of a statement, or all of it -/
  | .tooManyTokens ts => ts ≠ [] ∧ ∃ a, a ++ ts ∈ L
  /- the last token of a statement -/
  | .missingToken t => ∃ a, a ++ [t] ∈ L
  /- the statement that opens a block -/
  | .missingBlockClosingToken t => ∃ r, t :: r ∈ L ∧ (t.Is .HOW_IZ_I ∨ t.Is .WTF ∨ t.Is .O_RLY)
  /- `I HAS A` alone -/
  | .iHasA (.missingIdentifier t) => [t] ∈ L ∧ t.Is .I_HAS_A
  /- `I HAS A 1` -/
  | .iHasA (.invalidIdentifier u) => ∃ t r, t :: u :: r ∈ L ∧ t.Is .I_HAS_A ∧ ¬ u.IsIdent ∧ ¬ u.Is .SRS
  /- `I HAS A x ITZ` -/
  | .iHasA (.expectedInitialValue itz) => ∃ t i, t :: (Identifier.toks i ++ [itz]) ∈ L ∧ t.Is .I_HAS_A ∧ i.WF ∧
      itz.Is .ITZ
  | .variableAssignment (.missingR _) => False
  /- `x R`, `x HAS A` -/
  | .variableAssignment (.expectedValue r) => ∃ v, VariableAccess.toks v ++ [r] ∈ L ∧ v.WF ∧ (r.Is .R ∨ r.Is .HAS_A)
  /- an operator at the end of a statement, or one followed there by one operand, perhaps with `AN` -/
  | .expression (.missingOperands t) => (∃ k ∈ operandKeywords, t.Is k) ∧
      ((∃ a, a ++ [t] ∈ L) ∨ ¬ t.Is .NOT ∧ ∃ a e an, a ++ t :: (Expr.toks e ++ an) ∈ L ∧ e.WF ∧
        (an = [] ∨ ∃ u, an = [u] ∧ u.Is .AN))
  /- `O RLY` and `WTF` without `?` -/
  | .oRly (.missingQuestionMark t) => ∃ r, t :: r ∈ L ∧ (t.Is .WTF ∨ t.Is .O_RLY) ∧
      ∀ q r', r = q :: r' → ¬ q.IsQuestion
  /- `MEBBE` alone -/
  | .oRly (.missingMebbeExpression t) => [t] ∈ L ∧ t.Is .MEBBE
  /- `HOW IZ I` alone -/
  | .howIsI (.missingNameIdentifier t) => [t] ∈ L ∧ t.Is .HOW_IZ_I
  /- `IM IN YR x UPPIN 1` -/
  | .imInYr (.missingYr u) => ∃ t label op r, t :: label :: op :: u :: r ∈ L ∧ t.Is .IM_IN_YR ∧ label.IsIdent ∧
      (op.Is .UPPIN ∨ op.Is .NERFIN) ∧ ¬ u.Is .YR
  /- `IM IN YR` alone -/
  | .imInYr (.missingStartLabel t) => [t] ∈ L ∧ t.Is .IM_IN_YR
  /- `IM IN YR 1` -/
  | .imInYr (.invalidStartLabel u) => ∃ t r, t :: u :: r ∈ L ∧ t.Is .IM_IN_YR ∧ ¬ u.IsIdent
  /- `IM OUTTA YR` alone -/
  | .imInYr (.missingEndLabel c) => [c] ∈ L ∧ c.Is .IM_OUTTA_YR
  /- `IM OUTTA YR 1` -/
  | .imInYr (.invalidEndLabel u) => ∃ c r, c :: u :: r ∈ L ∧ c.Is .IM_OUTTA_YR ∧ ¬ u.IsIdent
  /- a loop -/
  | .imInYr (.missingImOuttaYr t) => ∃ r, t :: r ∈ L ∧ t.Is .IM_IN_YR
  | .imInYr (.invalidOperation _) => False
  /- `IM IN YR x UPPIN`, `IM IN YR x UPPIN YR` -/
  | .imInYr (.missingOperand op) => ∃ t label r, t :: label :: op :: r ∈ L ∧ t.Is .IM_IN_YR ∧ label.IsIdent ∧
      (op.Is .UPPIN ∨ op.Is .NERFIN) ∧ (r = [] ∨ ∃ yr, r = [yr] ∧ yr.Is .YR)
  | .imInYr (.invalidConditional _) => False
  /- `IM IN YR x TIL` -/
  | .imInYr (.missingConditionalExpression c) => ∃ t label a, t :: label :: (a ++ [c]) ∈ L ∧ t.Is .IM_IN_YR ∧
      label.IsIdent ∧ (c.Is .TIL ∨ c.Is .WILE)
  /- `I IZ` alone -/
  | .iIz (.missingName t) => [t] ∈ L ∧ t.Is .I_IZ
  /- `I IZ x YR` -/
  | .iIz (.missingArgument yr) => ∃ t v a, t :: (VariableAccess.toks v ++ (a ++ [yr])) ∈ L ∧ t.Is .I_IZ ∧ v.WF ∧
      yr.Is .YR
  /- `I IZ x YR 1` and `I IZ x YR 1 2`: the first token, or the one in place of `MKAY` -/
  | .iIz (.missingMkay u) => ∃ t v r, t :: (VariableAccess.toks v ++ r) ∈ L ∧ t.Is .I_IZ ∧ v.WF ∧
      (u = t ∨ u ∈ r ∧ ¬ u.Is .MKAY)

end Lol
