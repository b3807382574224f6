import Verif.Lexer.Spec

/-!
# Writing tokens down (specification)

How a list of token types can be written as a source text, line by line, so that it should be tokenized to these types.
-/

namespace Lol

/-- The keywords whose text is not tokenized to the keyword. -/
def hiddenKeywords : List Keyword := [.BTW, .OBTW, .NOOB, .WIN, .FAIL, .ANY_OF]

/-- `lex` is a text for a token of type `ty`, on which what stands before and after has no influence as long as it is
followed by a tab. Single line comments are not in it: they go to the end of the line. -/
inductive Writes : Str → TokenType → Prop
  | identifier (name : Str) : name ≠ [] → (∀ c ∈ name, IsIdent c) → (∀ k : Keyword, ¬ k.spelling <+: name) →
      Writes name (.identifier name)
  | keyword (k : Keyword) : k ∉ hiddenKeywords → Writes k.spelling (.keyword k)
  | symbol (c : Char) : IsAscii c → ¬ IsWs c → ¬ IsIdent c → ¬ IsDigit c → c ≠ ',' → c ≠ '!' → c ≠ '"' →
      Writes [c] (.symbol [c])
  | int (sgn ds : Str) : IsSign sgn → ds ≠ [] → (∀ d ∈ ds, IsDigit d) → InI32 (signedVal sgn ds) →
      Writes (sgn ++ ds) (.value (.number (.int (signedVal sgn ds))))
  | float (sgn ds es : Str) (x : F32) : IsSign sgn → ds ++ es ≠ [] → (∀ d ∈ ds, IsDigit d) → (∀ d ∈ es, IsDigit d) →
      FloatVal sgn ds es x → Writes (sgn ++ ds ++ '.' :: es) (.value (.number (.float x)))
  | string (s : Str) : StringBody s → (∀ c ∈ s, IsAscii c) → Writes ('"' :: (s ++ ['"'])) (.value (.string s))
  | win : Writes chars!"WIN" (.value (.boolean true))
  | fail : Writes chars!"FAIL" (.value (.boolean false))
  | noob : Writes chars!"NOOB" (.value .noob)
  | obtw (s : Str) : (∀ u v, s ++ chars!"TLDR" = u ++ (chars!"TLDR" ++ v) → s.length ≤ u.length) →
      Writes (chars!"OBTW" ++ s ++ chars!"TLDR") (.commentMultiLine s)
  | slot : Writes chars!"'Z" .bukkitSlotAccess
  | ellipsis : Writes chars!"..." .ellipsis
  | comma : Writes [','] .comma
  | bang : Writes ['!'] .exclamationMark

/-- `text` is a line with tokens of the given types: every token but a comment at the end is followed by a tab and
possibly more blanks. -/
inductive WritesLine : List TokenType → Str → Prop
  | nil : WritesLine [] ['\n']
  | comment (s : Str) : '\n' ∉ s → WritesLine [.commentSingleLine s] (chars!"BTW" ++ s ++ ['\n'])
  | cons {lex : Str} {ty : TokenType} {blanks : Str} {tys : List TokenType} {text : Str} : Writes lex ty →
      (∀ c ∈ blanks, c = ' ' ∨ c = '\t') → WritesLine tys text →
      WritesLine (ty :: tys) (lex ++ '\t' :: (blanks ++ text))

/-- `text` consists of lines with tokens of the given types. -/
inductive WritesLines : List (List TokenType) → Str → Prop
  | nil : WritesLines [] []
  | cons {tys : List TokenType} {text : Str} {lines : List (List TokenType)} {more : Str} : WritesLine tys text →
      WritesLines lines more → WritesLines (tys :: lines) (text ++ more)

/-- The token types that can be written down before a tab: what `Writes` can reach. -/
def Writable : TokenType → Prop
  | .identifier name => name ≠ [] ∧ (∀ c ∈ name, IsIdent c) ∧ ∀ k : Keyword, ¬ k.spelling <+: name
  | .keyword k => k ∉ hiddenKeywords
  | .symbol s => ∃ c, s = [c] ∧ IsAscii c ∧ ¬ IsWs c ∧ ¬ IsIdent c ∧ ¬ IsDigit c ∧ c ≠ ',' ∧ c ≠ '!' ∧ c ≠ '"'
  | .value (.number (.int n)) => InI32 n
  | .value (.number (.float x)) => x.bits ≤ infBits
  | .value (.string s) => StringBody s ∧ ∀ c ∈ s, IsAscii c
  | .value (.boolean _) | .value .noob => True
  | .commentSingleLine _ => False
  | .commentMultiLine s => ∀ u v, s ++ chars!"TLDR" = u ++ (chars!"TLDR" ++ v) → s.length ≤ u.length
  | .bukkitSlotAccess | .ellipsis | .comma | .exclamationMark => True
  | .questionMark => False

/-- The types of a line: writable ones, and possibly a single line comment at the end. -/
def WritableLine : List TokenType → Prop
  | [] => True
  | [.commentSingleLine s] => '\n' ∉ s
  | ty :: tys => Writable ty ∧ WritableLine tys

end Lol
