import Verif.Lexer.Spec

/-!
# Layout of a source text (specification)

A source text as white space and lexemes in turn, and changes of the white space.
-/

namespace Lol

/-- A lexeme with the white space in front of it. -/
structure Piece where
  gap : Str
  lex : Str
  type : TokenType

/-- The text of the pieces, with white space `tail` at the end. -/
def layout : List Piece → (tail : Str) → Str
  | [], tail => tail
  | p :: ps, tail => p.gap ++ (p.lex ++ layout ps tail)

/-- The tokens stand at the lexemes of the pieces, where the text of the pieces starts at byte `o` and line `l`, and
only newlines between lexemes start a new line. -/
def TokensAt : (o l : Int) → List Piece → List Token → Prop
  | _, _, [], [] => True
  | o, l, p :: ps, t :: ts =>
    t.tokenType = p.type ∧ t.range.start.bytes = o + utf8Len p.gap ∧
      t.range.stop.bytes = o + utf8Len (p.gap ++ p.lex) ∧ t.range.start.line = l + (p.gap.count '\n' : Nat) ∧
      TokensAt (o + utf8Len (p.gap ++ p.lex)) (l + (p.gap.count '\n' : Nat)) ps ts
  | _, _, _, _ => False

/-- There is only white space between the lexemes. -/
def GapsBlank (ps : List Piece) (tail : Str) : Prop := (∀ p ∈ ps, WsOnly p.gap) ∧ WsOnly tail

/-- White space that cannot be inside a keyword: something else than a single space. -/
def WideGap (g : Str) : Prop := WsOnly g ∧ g ≠ [] ∧ g ≠ [' ']

/-- After the part `v` of a keyword's spelling a lexeme can start: it is the start of a word, or another keyword
stands there, such as `A` in `ALL OF`. -/
inductive Cuts : Str → Prop
  | nil : Cuts []
  | space (v : Str) : Cuts (v ++ [' '])
  | keyword (v : Str) (j : Keyword) : Cuts v → Cuts (v ++ j.spelling)

/-- A lexeme that stands before a space inside the spelling of some keyword, such as `HAS` in `I HAS A`. -/
def Joins (lex : Str) : Prop := ∃ (k : Keyword) (v b : Str), k.spelling = v ++ (lex ++ ' ' :: b) ∧ Cuts v

/-- `g'` may stand in place of the white space `g` after the lexeme and type `prev`: it is `g`, or any other white
space but not nothing, and a single space only if the lexeme does not join with what follows. After a single line
comment it has to start with a newline. White space before the first lexeme (`none`) can be replaced by any other. -/
def NewGap (prev : Option (Str × TokenType)) (g g' : Str) : Prop :=
  g' = g ∨ match prev with
    | none => WsOnly g'
    | some (_, .commentSingleLine _) => WsOnly g' ∧ ∃ r, g' = '\n' :: r
    | some (lex, _) => WideGap g' ∨ g' = [' '] ∧ ¬ Joins lex

/-- `ps'` and `tail'` are the same lexemes as `ps` and `tail` with other white space. -/
inductive Respaced : Option (Str × TokenType) → List Piece → Str → List Piece → Str → Prop
  | nil {prev : Option (Str × TokenType)} {tail tail' : Str} : NewGap prev tail tail' → Respaced prev [] tail [] tail'
  | cons {prev : Option (Str × TokenType)} {g g' lex : Str} {ty : TokenType} {ps ps' : List Piece}
      {tail tail' : Str} : NewGap prev g g' → Respaced (some (lex, ty)) ps tail ps' tail' →
      Respaced prev (⟨g, lex, ty⟩ :: ps) tail (⟨g', lex, ty⟩ :: ps') tail'

/-- Newlines stand between the same lexemes. -/
def SameBreaks : List Piece → List Piece → Prop
  | p :: ps, p' :: ps' => ('\n' ∈ p'.gap ↔ '\n' ∈ p.gap) ∧ SameBreaks ps ps'
  | _, _ => True

/-- Lexemes that are found wherever they stand: strings are closed and ASCII, and symbols cannot be part of a
number. -/
def Piece.Movable (p : Piece) : Prop :=
  (∀ s, p.type = .value (.string s) → (∀ c ∈ s, IsAscii c) ∧ p.lex = '"' :: (s ++ ['"'])) ∧
    ∀ c, p.type = .symbol [c] → ¬ IsDigit c ∧ c ≠ '+' ∧ c ≠ '-' ∧ c ≠ '.'

/-- Token by token the same types, and in both lists or in none on the line of the token before. -/
def SameSteps : (l m : Int) → List Token → List Token → Prop
  | _, _, [], [] => True
  | l, m, t :: ts, u :: us => t.tokenType = u.tokenType ∧ (t.range.start.line = l ↔ u.range.start.line = m) ∧
      SameSteps t.range.start.line u.range.start.line ts us
  | _, _, _, _ => False

end Lol
