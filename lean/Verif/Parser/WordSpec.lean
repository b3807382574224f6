import Verif.Parser.ConstructSpec

/-!
# The tokens of programs without errors (specification)
-/

namespace Lol

/-- Keywords of the tokenizer that no statement is made of. -/
def unusedKeywords : List Keyword := [.MAEK, .IS_NOW, .A, .BTW, .OBTW, .TLDR, .WIN, .FAIL, .HAI]

/-- Keywords that have a use in statements, identifiers, values, `'Z` and `!`. -/
def Token.IsWord (t : Token) : Prop :=
  match t.tokenType with
  | .keyword k => k ∉ unusedKeywords
  | .identifier _ | .value _ | .bukkitSlotAccess | .exclamationMark => True
  | .symbol _ | .commentSingleLine _ | .commentMultiLine _ | .ellipsis | .comma | .questionMark => False

/-- All tokens are words. -/
def AllWords (ts : List Token) : Prop := ∀ t ∈ ts, t.IsWord

/-- The statement is `O RLY?` or `WTF?`. -/
def AsksOnly (st : List Token) : Prop := ∃ t q, st = [t, q] ∧ (t.Is .O_RLY ∨ t.Is .WTF) ∧ q.IsQuestion

end Lol
