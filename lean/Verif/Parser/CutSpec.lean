import Verif.Lexer.LayoutSpec
import Verif.Parser.EditSpec

/-!
# Parts cut out of a source text (specification)
-/

namespace Lol

/-- `txt` is the text from the start of the first of the tokens `ts` to the end of the last. -/
def TextOf (code : Str) (ts : List Token) (txt : Str) : Prop :=
  ∃ pre post first last, code = pre ++ (txt ++ post) ∧ ts.head? = some first ∧ ts.getLast? = some last ∧
    first.range.start.bytes = utf8Len pre ∧ last.range.stop.bytes = utf8Len (pre ++ txt)

/-- Strings are closed and ASCII, and symbols cannot be part of a number. -/
def Token.Movable (t : Token) : Prop :=
  (∀ s, t.tokenType = .value (.string s) →
      (∀ c ∈ s, IsAscii c) ∧ t.range.stop.bytes = t.range.start.bytes + s.length + 2) ∧
    ∀ c, t.tokenType = .symbol [c] → ¬ IsDigit c ∧ c ≠ '+' ∧ c ≠ '-' ∧ c ≠ '.'

/-- `txt` is the text of `code` between the two positions of the range. -/
def TextUnder (code : Str) (range : Position × Position) (txt : Str) : Prop :=
  ∃ pre post, code = pre ++ (txt ++ post) ∧ range.1.bytes = utf8Len pre ∧ range.2.bytes = utf8Len (pre ++ txt)

/-- The nodes `x` stand one after the other in a block, at some depth. -/
inductive Within (x : Block) : Block → Prop
  | here (a b : Block) : Within x (a ++ (x ++ b))
  | loop {body : Block} (a b : Block) (t label : Token) (op : Option LoopIterationOperation)
      (cond : Option LoopCondition) (endLabel : Token) : Within x body →
      Within x (a ++ .imInYr t label op cond body endLabel :: b)
  | function {body : Block} (a b : Block) (t : Token) (name : Identifier) (params : List Identifier) :
      Within x body → Within x (a ++ .howIzI t name params body :: b)
  | case {body : Block} (a b : Block) (t : Token) (l r : List WtfOmg) (omg : Token) (e : Expr)
      (dflt : Option WtfOmgWtf) : Within x body → Within x (a ++ .wtf t (l ++ .mk omg e body :: r) dflt :: b)
  | dflt {body : Block} (a b : Block) (t : Token) (omgs : List WtfOmg) (u : Token) : Within x body →
      Within x (a ++ .wtf t omgs (some (.mk u body)) :: b)
  | yes {body : Block} (a b : Block) (t u : Token) (no : Option NoWai) (ms : List Mebbe) : Within x body →
      Within x (a ++ .oRly t (some (.mk u body)) no ms :: b)
  | maybe {body : Block} (a b : Block) (t : Token) (yes : Option YaRly) (no : Option NoWai) (l r : List Mebbe)
      (u : Token) (e : Expr) : Within x body → Within x (a ++ .oRly t yes no (l ++ .mk u e body :: r) :: b)
  | no {body : Block} (a b : Block) (t u : Token) (yes : Option YaRly) (ms : List Mebbe) : Within x body →
      Within x (a ++ .oRly t yes (some (.mk u body)) ms :: b)

end Lol
