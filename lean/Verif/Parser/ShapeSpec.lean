import Verif.Parser.MapSpec

/-!
# The shape of a syntax tree (specification)

The shape of a tree is the tree without its tokens: which variants it is made of, how long its lists are and which
optional parts are present.
-/

namespace Lol

/-- The same token for every token. -/
def blank (_ : Token) : Token :=
  { range := { start := Position.default, stop := Position.default }, tokenType := .comma }

/-- The shape of an expression. -/
def Expr.shape (e : Expr) : Expr := e.map blank

/-- The shape of a node. -/
def Node.shape (x : Node) : Node := x.map blank

/-- The shape of a block. -/
def shapeBlock (b : Block) : Block := mapBlock blank b

end Lol
