import Verif.Lexer.FloatSpec

/-!
# Specification of the token language

Independent of the functions of `Model.lean`: only string concatenation, membership and prefixes are
used. `Lexeme lex rest ty` says that a source standing at `lex ++ rest` starts with the lexeme `lex` of
type `ty`.
-/

namespace Lol

/-- The characters skipped between tokens. -/
def IsWs (c : Char) : Prop := c = ' ' ∨ c = '\t' ∨ c = '\n'

instance : DecidablePred IsWs := fun c => by unfold IsWs; infer_instance

/-- All characters are white space. -/
def WsOnly (s : Str) : Prop := ∀ c ∈ s, IsWs c

def IsDigit (c : Char) : Prop := '0' ≤ c ∧ c ≤ '9'

instance : DecidablePred IsDigit := fun c => by unfold IsDigit; infer_instance

/-- Letters of either case and the underscore. -/
def IsIdent (c : Char) : Prop := c = '_' ∨ ('a' ≤ c ∧ c ≤ 'z') ∨ ('A' ≤ c ∧ c ≤ 'Z')

instance : DecidablePred IsIdent := fun c => by unfold IsIdent; infer_instance

def IsAscii (c : Char) : Prop := c.toNat < 128

instance : DecidablePred IsAscii := fun c => by unfold IsAscii; infer_instance

/-- The optional sign of a number. -/
def IsSign (s : Str) : Prop := s = [] ∨ s = ['+'] ∨ s = ['-']

/-- Decimal value, most significant digit first. -/
def decVal (ds : Str) : Nat := ds.foldl (fun n c => n * 10 + (c.toNat - '0'.toNat)) 0

/-- Value of an optionally signed digit string. -/
def signedVal (sgn ds : Str) : Int := if sgn = ['-'] then -(decVal ds : Int) else decVal ds

/-- `n` fits in an `i32`. -/
def InI32 (n : Int) : Prop := -2147483648 ≤ n ∧ n ≤ 2147483647

instance : DecidablePred InI32 := fun n => by unfold InI32; infer_instance

/-- `x` is the value of the float literal with this sign and these digits before and after the dot. -/
def FloatVal (sgn ds es : Str) (x : F32) : Prop :=
  (x.neg = true ↔ sgn = ['-']) ∧ Nearest (decVal (ds ++ es)) (10 ^ es.length) x.bits

/-- Number lexemes: an integer must be followed by some character that is neither a digit nor a dot, a
float by some character that is not a digit. -/
inductive NumberLexeme : Str → Str → NumberToken → Prop
  | int (sgn ds : Str) (c : Char) (rest : Str) :
      IsSign sgn → ds ≠ [] → (∀ d ∈ ds, IsDigit d) → InI32 (signedVal sgn ds) →
      ¬ IsDigit c → c ≠ '.' →
      NumberLexeme (sgn ++ ds) (c :: rest) (.int (signedVal sgn ds))
  | float (sgn ds es : Str) (c : Char) (rest : Str) (x : F32) :
      IsSign sgn → ds ++ es ≠ [] → (∀ d ∈ ds, IsDigit d) → (∀ d ∈ es, IsDigit d) → ¬ IsDigit c →
      FloatVal sgn ds es x → NumberLexeme (sgn ++ ds ++ '.' :: es) (c :: rest) (.float x)

/-- Every quote in `s` directly follows a colon. -/
def QuotesEscaped (s : Str) : Prop := ∀ u v, s = u ++ '"' :: v → ∃ u', u = u' ++ [':']

/-- `body` is the text between an opening quote and the quote that closes it. -/
def StringBody (body : Str) : Prop := QuotesEscaped body ∧ ∀ u, body ≠ u ++ [':']

/-- The source text of a keyword. -/
def Keyword.spelling : Keyword → Str
  | .BTW => chars!"BTW" | .HAS_A => chars!"HAS A" | .OBTW => chars!"OBTW" | .SRS => chars!"SRS"
  | .TLDR => chars!"TLDR" | .BUKKIT => chars!"BUKKIT" | .HAI => chars!"HAI"
  | .KTHXBYE => chars!"KTHXBYE" | .I_HAS_A => chars!"I HAS A" | .ITZ => chars!"ITZ"
  | .NOOB => chars!"NOOB" | .TROOF => chars!"TROOF" | .FAIL => chars!"FAIL" | .WIN => chars!"WIN"
  | .NUMBR => chars!"NUMBR" | .NUMBAR => chars!"NUMBAR" | .YARN => chars!"YARN" | .MKAY => chars!"MKAY"
  | .AN => chars!"AN" | .SUM_OF => chars!"SUM OF" | .DIFF_OF => chars!"DIFF OF"
  | .PRODUKT_OF => chars!"PRODUKT OF" | .QUOSHUNT_OF => chars!"QUOSHUNT OF" | .MOD_OF => chars!"MOD OF"
  | .BIGGR_OF => chars!"BIGGR OF" | .SMALLR_OF => chars!"SMALLR OF" | .BOTH_SAEM => chars!"BOTH SAEM"
  | .BOTH_OF => chars!"BOTH OF" | .EITHER_OF => chars!"EITHER OF" | .WON_OF => chars!"WON OF"
  | .NOT => chars!"NOT" | .UPPIN => chars!"UPPIN" | .NERFIN => chars!"NERFIN"
  | .ALL_OF => chars!"ALL OF" | .ANY_OF => chars!"ANY OF" | .DIFFRINT => chars!"DIFFRINT"
  | .SMOOSH => chars!"SMOOSH" | .MAEK => chars!"MAEK" | .IS_NOW => chars!"IS NOW"
  | .VISIBLE => chars!"VISIBLE" | .GIMMEH => chars!"GIMMEH" | .O_RLY => chars!"O RLY"
  | .YA_RLY => chars!"YA RLY" | .NO_WAI => chars!"NO WAI" | .OIC => chars!"OIC"
  | .MEBBE => chars!"MEBBE" | .WTF => chars!"WTF" | .OMGWTF => chars!"OMGWTF" | .OMG => chars!"OMG"
  | .GTFO => chars!"GTFO" | .IM_IN_YR => chars!"IM IN YR" | .YR => chars!"YR" | .TIL => chars!"TIL"
  | .WILE => chars!"WILE" | .IM_OUTTA_YR => chars!"IM OUTTA YR" | .HOW_IZ_I => chars!"HOW IZ I"
  | .IF_U_SAY_SO => chars!"IF U SAY SO" | .FOUND_YR => chars!"FOUND YR" | .I_IZ => chars!"I IZ"
  | .R => chars!"R" | .A => chars!"A"

/-- The lexeme grammar. -/
inductive Lexeme : Str → Str → TokenType → Prop
  | comma (rest) : Lexeme [','] rest .comma
  | bang (rest) : Lexeme ['!'] rest .exclamationMark
  | btw (body rest : Str) : '\n' ∉ body → (rest = [] ∨ ∃ r, rest = '\n' :: r) →
      Lexeme (chars!"BTW" ++ body) rest (.commentSingleLine body)
  | obtw (body rest : Str) :
      -- no earlier occurrence of TLDR
      (∀ u v, body ++ (chars!"TLDR" ++ rest) = u ++ (chars!"TLDR" ++ v) → body.length ≤ u.length) →
      Lexeme (chars!"OBTW" ++ body ++ chars!"TLDR") rest (.commentMultiLine body)
  | slot (rest) : Lexeme chars!"'Z" rest .bukkitSlotAccess
  | ellipsis (rest) : Lexeme chars!"..." rest .ellipsis
  | win (rest) : Lexeme chars!"WIN" rest (.value (.boolean true))
  | fail (rest) : Lexeme chars!"FAIL" rest (.value (.boolean false))
  | noob (rest) : Lexeme chars!"NOOB" rest (.value .noob)
  | keyword (k : Keyword) (rest : Str) :
      -- first match in declaration order
      (∀ j : Keyword, j.ctorIdx < k.ctorIdx → ¬ j.spelling <+: k.spelling ++ rest) →
      k ≠ .BTW → k ≠ .OBTW → k ≠ .WIN → k ≠ .FAIL → k ≠ .NOOB →
      Lexeme k.spelling rest (.keyword k)
  | number (lex rest : Str) (n : NumberToken) : NumberLexeme lex rest n →
      Lexeme lex rest (.value (.number n))
  | stringClosed (body after pay : Str) (c : Char) (rest : Str) : StringBody body →
      -- The closing quote is found by counting characters, and the lexeme and the payload are then cut by
      -- that many *bytes*; for ASCII bodies this is `pay = body`, `c = '"'`, `rest = after`.
      '"' :: (body ++ '"' :: after) = '"' :: (pay ++ c :: rest) →
      utf8Len pay = body.length → IsAscii c →
      Lexeme ('"' :: (pay ++ [c])) rest (.value (.string pay))
  | stringOpen (body : Str) : QuotesEscaped body → Lexeme ('"' :: body) [] (.value (.string body))
  | identifier (name rest : Str) : name ≠ [] → (∀ c ∈ name, IsIdent c) →
      (∀ c r, rest = c :: r → ¬ IsIdent c) → (∀ k : Keyword, ¬ k.spelling <+: name ++ rest) →
      Lexeme name rest (.identifier name)
  | symbol (c : Char) (rest : Str) : IsAscii c → ¬ IsWs c → ¬ IsIdent c → c ≠ ',' → c ≠ '!' → c ≠ '"' →
      ¬ chars!"'Z" <+: c :: rest → ¬ chars!"..." <+: c :: rest →
      (∀ lex r n, c :: rest = lex ++ r → ¬ NumberLexeme lex r n) →
      Lexeme [c] rest (.symbol [c])

/-- The source stands at an `OBTW` that is never closed. -/
def Unclosed (code : Str) : Prop :=
  chars!"OBTW" <+: code ∧ ∀ u v, code ≠ u ++ (chars!"TLDR" ++ v)

/-- The source stands at a point where the tokenizer cannot slice. -/
inductive Stuck : Str → Prop
  /-- a character of more than one byte -/
  | nonAscii (c : Char) (rest : Str) : ¬ IsAscii c → Stuck (c :: rest)
  /-- a string literal whose closing quote's character index, taken as a byte index, does not leave a
  payload and one-byte last character -/
  | string (body after : Str) : StringBody body →
      (∀ pay c rest, body ++ '"' :: after = pay ++ c :: rest → utf8Len pay = body.length → ¬ IsAscii c) →
      Stuck ('"' :: (body ++ '"' :: after))

/-- Position after one white space character. -/
def Position.afterWs (p : Position) (c : Char) : Position :=
  if c = '\n' then { line := p.line + 1, column := 1, bytes := p.bytes + 1, chars := p.chars + 1 }
  else { line := p.line, column := p.column + 1, bytes := p.bytes + 1, chars := p.chars + 1 }

/-- Position after a lexeme. -/
def Position.afterLexeme (p : Position) (lex : Str) : Position :=
  { line := p.line, column := p.column + utf8Len lex, bytes := p.bytes + utf8Len lex,
    chars := p.chars + lex.length }

/-- `Scan code p ts code' p'`: reading from `code` at position `p`, tokens `ts` are found and `code'`
remains at position `p'`. -/
inductive Scan : Str → Position → List Token → Str → Position → Prop
  | refl (code p) : Scan code p [] code p
  | ws (c : Char) (code p ts code' p') : IsWs c → Scan code (p.afterWs c) ts code' p' →
      Scan (c :: code) p ts code' p'
  | tok (lex rest : Str) (ty : TokenType) (p ts code' p') : Lexeme lex rest ty →
      Scan rest (p.afterLexeme lex) ts code' p' →
      Scan (lex ++ rest) p ({ tokenType := ty, range := { start := p, stop := p.afterLexeme lex } } :: ts)
        code' p'

/-- Where `tokenize` starts. -/
def Position.first : Position := { line := 1, column := 1, bytes := 0, chars := 0 }

/-- `LexemeStart code rest p`: `tokenize code` comes to look for a lexeme at `rest`, position `p`. -/
def LexemeStart (code rest : Str) (p : Position) : Prop :=
  (∃ ts, Scan code .first ts rest p) ∧ rest ≠ [] ∧ ∀ c r, rest = c :: r → ¬ IsWs c

/-- The byte offset `o` is not inside the range of a token. -/
def Outside (ts : List Token) (o : Int) : Prop :=
  ∀ t ∈ ts, ¬ (t.range.start.bytes ≤ o ∧ o < t.range.stop.bytes)

instance (ts : List Token) : DecidablePred (Outside ts) := fun o => by unfold Outside; infer_instance

/-- Line and column after the text `s`, which starts at the byte offset `o`, at line `l` and column `c`: only the
newlines outside the tokens `ts` start a new line. -/
def lineColumn (ts : List Token) : (s : Str) → (o l c : Int) → Int × Int
  | [], _, l, c => (l, c)
  | ch :: s, o, l, c =>
    if ch = '\n' ∧ Outside ts o then lineColumn ts s (o + 1) (l + 1) 1
    else lineColumn ts s (o + ch.utf8Size) l (c + ch.utf8Size)

end Lol

namespace Lol

/-- The source text `lex` spells the token type: what C06 asks of every token. Unlike `Lexeme` it does not
look at the context. -/
inductive Spells : Str → TokenType → Prop
  | identifier (name : Str) : name ≠ [] → (∀ c ∈ name, IsIdent c) → Spells name (.identifier name)
  | keyword (k : Keyword) : Spells k.spelling (.keyword k)
  | symbol (c : Char) : Spells [c] (.symbol [c])
  | int (sgn ds : Str) : IsSign sgn → ds ≠ [] → (∀ d ∈ ds, IsDigit d) →
      Spells (sgn ++ ds) (.value (.number (.int (signedVal sgn ds))))
  | float (sgn ds es : Str) (x : F32) : IsSign sgn → ds ++ es ≠ [] → (∀ d ∈ ds, IsDigit d) →
      (∀ d ∈ es, IsDigit d) → FloatVal sgn ds es x →
      Spells (sgn ++ ds ++ '.' :: es) (.value (.number (.float x)))
  | string (s : Str) : StringBody s → Spells ('"' :: (s ++ ['"'])) (.value (.string s))
  | stringOpen (s : Str) : QuotesEscaped s → Spells ('"' :: s) (.value (.string s))
  | win : Spells chars!"WIN" (.value (.boolean true))
  | fail : Spells chars!"FAIL" (.value (.boolean false))
  | noob : Spells chars!"NOOB" (.value .noob)
  | btw (s : Str) : Spells (chars!"BTW" ++ s) (.commentSingleLine s)
  | obtw (s : Str) : Spells (chars!"OBTW" ++ s ++ chars!"TLDR") (.commentMultiLine s)
  | slot : Spells chars!"'Z" .bukkitSlotAccess
  | ellipsis : Spells chars!"..." .ellipsis
  | comma : Spells [','] .comma
  | bang : Spells ['!'] .exclamationMark

end Lol
