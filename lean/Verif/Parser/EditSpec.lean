import Verif.Parser.ReadSpec

/-!
# Trees that differ in the nodes of one statement (specification)
-/

namespace Lol

/-- The keywords that end a block or open the next part of a construct. -/
def partKeywords : List Keyword := [.IM_OUTTA_YR, .IF_U_SAY_SO, .OMG, .OMGWTF, .YA_RLY, .MEBBE, .NO_WAI, .OIC]

/-- `Edited W nodes nodes'`: the blocks differ only in nodes `x` of one block at some depth, in place of which the
other has `x'`, with `W x x'`; or they are the same, and the block that would have these nodes has the error of a
construct that was dropped with everything in it. -/
inductive Edited (W : Block → Block → Prop) : Block → Block → Prop
  | lost {e : ASTError} {b : Block} : .astError e ∈ b → Edited W b b
  | here {x x' : Block} (a b : Block) : W x x' → Edited W (a ++ (x ++ b)) (a ++ (x' ++ b))
  | loop {body body' : Block} (a b : Block) (t label : Token) (op : Option LoopIterationOperation)
      (cond : Option LoopCondition) (endLabel : Token) : Edited W body body' →
      Edited W (a ++ .imInYr t label op cond body endLabel :: b) (a ++ .imInYr t label op cond body' endLabel :: b)
  | function {body body' : Block} (a b : Block) (t : Token) (name : Identifier) (params : List Identifier) :
      Edited W body body' → Edited W (a ++ .howIzI t name params body :: b) (a ++ .howIzI t name params body' :: b)
  | case {body body' : Block} (a b : Block) (t : Token) (l r : List WtfOmg) (omg : Token) (e : Expr)
      (dflt : Option WtfOmgWtf) : Edited W body body' →
      Edited W (a ++ .wtf t (l ++ .mk omg e body :: r) dflt :: b) (a ++ .wtf t (l ++ .mk omg e body' :: r) dflt :: b)
  | dflt {body body' : Block} (a b : Block) (t : Token) (omgs : List WtfOmg) (u : Token) : Edited W body body' →
      Edited W (a ++ .wtf t omgs (some (.mk u body)) :: b) (a ++ .wtf t omgs (some (.mk u body')) :: b)
  | yes {body body' : Block} (a b : Block) (t u : Token) (no : Option NoWai) (ms : List Mebbe) : Edited W body body' →
      Edited W (a ++ .oRly t (some (.mk u body)) no ms :: b) (a ++ .oRly t (some (.mk u body')) no ms :: b)
  | maybe {body body' : Block} (a b : Block) (t : Token) (yes : Option YaRly) (no : Option NoWai) (l r : List Mebbe)
      (u : Token) (e : Expr) : Edited W body body' →
      Edited W (a ++ .oRly t yes no (l ++ .mk u e body :: r) :: b) (a ++ .oRly t yes no (l ++ .mk u e body' :: r) :: b)
  | no {body body' : Block} (a b : Block) (t u : Token) (yes : Option YaRly) (ms : List Mebbe) : Edited W body body' →
      Edited W (a ++ .oRly t yes (some (.mk u body)) ms :: b) (a ++ .oRly t yes (some (.mk u body')) ms :: b)

/-- The nodes of a statement whose tokens are not read as a statement: those of a statement before it took all its
tokens, or its first token stands where `OIC` was expected. -/
inductive Misread (st st' : List Token) : Block → Block → Prop
  | left : Misread st st' [.astError (.tooManyTokens st)] [.astError (.tooManyTokens st')]
  | unexpected {t t' : Token} {r r' : List Token} : st = t :: r → st' = t' :: r' →
      Misread st st' (.astError (.unexpectedToken t) :: leftoverNodes r)
        (.astError (.unexpectedToken t') :: leftoverNodes r')

end Lol
