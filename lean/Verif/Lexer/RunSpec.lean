import Verif.Lexer.Spec

/-!
# All outcomes of the tokenizer (specification)
-/

namespace Lol

/-- The outcomes that the tokenizer may have on a source: it reads white space and lexemes up to the end, or up to an
`OBTW` that is never closed, or up to a place where it cannot slice. -/
inductive Tokenizes (code : Str) : Out (Except TokenError (List Token)) → Prop
  | tokens {ts : List Token} {p : Position} : Scan code .first ts [] p → Tokenizes code (.ok (.ok ts))
  | unclosed {ts : List Token} {rest : Str} {p : Position} : Scan code .first ts rest p → Unclosed rest →
      Tokenizes code (.ok (.error (.unclosedMultilineComment { start := p, stop := p.afterLexeme rest })))
  | stuck {ts : List Token} {rest : Str} {p : Position} : Scan code .first ts rest p → Stuck rest →
      Tokenizes code (.panic .strSlice)

/-- The source starts with white space. -/
def StartsWithWs (code : Str) : Prop := ∃ c r, code = c :: r ∧ IsWs c

/-- The source starts with a lexeme. -/
def StartsWithLexeme (code : Str) : Prop := ∃ lex rest ty, code = lex ++ rest ∧ Lexeme lex rest ty

end Lol
