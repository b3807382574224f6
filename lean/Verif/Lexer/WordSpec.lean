import Verif.Lexer.LayoutSpec

/-!
# Other keywords in a source text (specification)
-/

namespace Lol

/-- The keywords that can be written in place of any keyword, whatever stands before and after it: they are not the start
of another keyword, and no keyword goes on with them or with a part of them after a space or after a keyword, as `HAS A`
goes on with the `A` of `ALL OF` and `AN` with the `N` of `NUMBR`. -/
def Keyword.placeable : Keyword → Bool
  | .SRS | .TLDR | .BUKKIT | .HAI | .KTHXBYE | .TROOF | .YARN | .MKAY | .SUM_OF | .DIFF_OF | .PRODUKT_OF | .QUOSHUNT_OF
  | .MOD_OF | .BIGGR_OF | .SMALLR_OF | .BOTH_SAEM | .BOTH_OF | .EITHER_OF | .WON_OF | .UPPIN | .DIFFRINT | .SMOOSH | .MAEK
  | .VISIBLE | .GIMMEH | .O_RLY | .YA_RLY | .OIC | .MEBBE | .OMGWTF | .GTFO | .TIL | .WILE | .HOW_IZ_I | .FOUND_YR => true
  | _ => false

/-- `ρ` puts placeable keywords in place of keywords, and leaves all else. -/
def Rewording (ρ : TokenType → TokenType) : Prop :=
  ∀ ty, ρ ty = ty ∨ ∃ k k', ty = .keyword k ∧ ρ ty = .keyword k' ∧ k'.placeable = true

/-- The new keyword, if there is one, in place of the old. -/
def Piece.reword (ρ : TokenType → TokenType) (p : Piece) : Piece :=
  match ρ p.type with
  | .keyword k => ⟨p.gap, k.spelling, .keyword k⟩
  | _ => p

/-- The new keyword in a token. -/
def Token.reword (ρ : TokenType → TokenType) (t : Token) : Token := { t with tokenType := ρ t.tokenType }

end Lol
