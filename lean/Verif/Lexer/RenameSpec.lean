import Verif.Lexer.LayoutSpec

/-!
# Other names and strings in a source text (specification)
-/

namespace Lol

/-- A lower case letter or `_`: what no keyword contains. -/
def IsLower (c : Char) : Prop := c = '_' ∨ ('a' ≤ c ∧ c ≤ 'z')

instance : DecidablePred IsLower := fun c => by unfold IsLower; infer_instance

/-- A name that can stand anywhere: it starts with a lower case letter or `_`. -/
def SafeName (n : Str) : Prop := (∃ c r, n = c :: r ∧ IsLower c) ∧ ∀ c ∈ n, IsIdent c

/-- `ρ` puts safe names in place of names and ASCII strings in place of strings, and leaves all else. -/
def Renaming (ρ : TokenType → TokenType) : Prop :=
  ∀ ty, ρ ty = ty ∨
    (∃ n n', ty = .identifier n ∧ ρ ty = .identifier n' ∧ SafeName n') ∨
    ∃ s s', ty = .value (.string s) ∧ ρ ty = .value (.string s') ∧ StringBody s' ∧ ∀ c ∈ s', IsAscii c

/-- How names and strings are written. -/
def TokenType.written : TokenType → Str
  | .identifier n => n
  | .value (.string s) => '"' :: (s ++ ['"'])
  | _ => []

/-- The new name or string, if there is one, in place of the old. -/
def Piece.rename (ρ : TokenType → TokenType) (p : Piece) : Piece :=
  ⟨p.gap, if ρ p.type = p.type then p.lex else (ρ p.type).written, ρ p.type⟩

/-- The new name or string in a token. -/
def Token.rename (ρ : TokenType → TokenType) (t : Token) : Token := { t with tokenType := ρ t.tokenType }

end Lol
