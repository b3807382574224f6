import Verif.Parser.NoiseSpec

/-!
# Expressions put in place of literals (specification)

`σ` gives the expressions that are put in place of some value tokens. `putIn σ` does it in the tokens of a statement,
`Expr.putIn σ` in an expression.
-/

namespace Lol

/-- The expressions that `σ` gives are well formed, do not end with an operation without `MKAY`, are not the literal
`NOOB`, and are given for value tokens only. -/
def Replaces (σ : Token → Option Expr) : Prop :=
  ∀ t e, σ t = some e → (∃ v, t.tokenType = .value v) ∧ e.WF ∧ ¬ e.Open ∧ ¬ e.IsNoob

/-- Besides, the expressions do not end with a variable access, so they cannot go on with `'Z` behind them. -/
def ReplacesFirmly (σ : Token → Option Expr) : Prop :=
  Replaces σ ∧ ∀ t e, σ t = some e → ¬ e.EndsInAccess

/-- The tokens with expressions in place of literals. -/
def putInTokens (σ : Token → Option Expr) (ts : List Token) : List Token :=
  ts.flatMap fun t => match σ t with
    | some e => e.toks
    | none => [t]

/-- The tokens of a statement with expressions in place of literals; the version after `HAI` stays. -/
def putIn (σ : Token → Option Expr) : List Token → List Token
  | [] => []
  | t :: r => if t.Is .HAI then t :: r else putInTokens σ (t :: r)

mutual

/-- The expression with expressions in place of literals. -/
def Expr.putIn (σ : Token → Option Expr) : Expr → Expr
  | .value (.literal t) => (σ t).getD (.value (.literal t))
  | .value (.variableAccess v) => .value (.variableAccess v)
  | .unary op e => .unary op (e.putIn σ)
  | .binary op l an r => .binary op (l.putIn σ) an (r.putIn σ)
  | .nary op es mkay => .nary op (putInOperands σ es) mkay

/-- The operands with expressions in place of literals. -/
def putInOperands (σ : Token → Option Expr) : List Operand → List Operand
  | [] => []
  | .mk e an :: es => .mk (e.putIn σ) an :: putInOperands σ es

end

/-- Expressions are put in place of literals everywhere but in the version after `HAI`. -/
def withExpressions (σ : Token → Option Expr) : Retouch where
  expr := Expr.putIn σ
  shown := fun _ es => es.map (Expr.putIn σ)
  args := fun es => es.map (Expr.putIn σ)
  version := fun ts => ts

end Lol
