import Verif.Parser.TreeSpec

/-!
# How deep a tree is nested (specification)
-/

namespace Lol

/-- The expression is nested at most `d` levels deep. -/
inductive Expr.Fits : (d : Nat) → Expr → Prop
  | value {d : Nat} {v : ExprValue} : Fits (d + 1) (.value v)
  | unary {d : Nat} {op : UnaryOpt} {e : Expr} : Fits d e → Fits (d + 1) (.unary op e)
  | binary {d : Nat} {op : BinaryOpt} {l r : Expr} {an : Option Token} : Fits d l → Fits d r →
      Fits (d + 1) (.binary op l an r)
  | nary {d : Nat} {op : NaryOpt} {es : List Operand} {mkay : Option Token} : (∀ e an, .mk e an ∈ es → Fits d e) →
      Fits (d + 1) (.nary op es mkay)

/-- The expressions of a node for which `ASTExpression::parse` is called: all of them, but for a statement that is just
a variable. -/
def Node.parsedExprs : Node → List Expr
  | .expression (.value (.variableAccess _)) => []
  | node => node.exprs

/-- Blocks and expressions inside each other are nested at most `d` levels deep. -/
inductive BlockFits : (d : Nat) → Block → Prop
  | mk {d : Nat} {b : Block} : (∀ node ∈ b, ∀ e ∈ Node.parsedExprs node, e.Fits d) →
      (∀ node ∈ b, ∀ inner ∈ Node.blocks node, BlockFits d inner) → BlockFits (d + 1) b

/-- The keywords after which the parser calls itself: the operators, and those that open a block. -/
def deepKeywords : List Keyword :=
  [.BOTH_OF, .EITHER_OF, .WON_OF, .NOT, .ALL_OF, .ANY_OF, .SUM_OF, .DIFF_OF, .PRODUKT_OF, .QUOSHUNT_OF, .MOD_OF,
    .BIGGR_OF, .SMALLR_OF, .BOTH_SAEM, .DIFFRINT, .SMOOSH, .IM_IN_YR, .HOW_IZ_I, .WTF, .O_RLY]

/-- The number of tokens after which the parser calls itself. -/
def deepTokens (tokens : List Token) : Nat :=
  tokens.countP fun t => decide (t.tokenType ∈ deepKeywords.map TokenType.keyword)

end Lol
