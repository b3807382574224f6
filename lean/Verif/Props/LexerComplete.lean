import Verif.Lexer.RunSpec
import Verif.Props.ParserBlocks

/-! # The tokenizer, and the whole crate: complete specification (C89) -/

namespace Lol

/-- **C89** What `tokenize` does, on every source: the tokens with their types and ranges, or the error, or the panic. -/
theorem C89_tokenize (code : Str) (r : Out (Except TokenError (List Token))) :
    tokenize code = r ↔ Tokenizes code r := by
  rw [tokenize_eq_run]
  constructor
  · rintro rfl
    rcases run_cases code .first with ⟨ts, q, h, e⟩ | ⟨ts, rest, q, h, hu, e⟩ | ⟨ts, rest, q, h, hs, e⟩
    · exact e ▸ .tokens h
    · exact e ▸ .unclosed h hu
    · exact e ▸ .stuck h hs
  · rintro (h | ⟨h, hu⟩ | ⟨h, hs⟩)
    · exact run_ok_iff.2 ⟨_, h⟩
    · exact run_error_iff.2 ⟨_, _, _, h, hu, rfl⟩
    · exact run_panic_iff.2 ⟨rfl, _, _, _, h, hs⟩

-- The three outcomes
example : ∃ ts, Tokenizes chars!"SUM OF x" (.ok (.ok ts)) ∧ ts.map (·.tokenType) = [.keyword .SUM_OF, .identifier ['x']] :=
  ⟨_, (C89_tokenize _ _).1 rfl, by decide +kernel⟩
example : ∃ r, Tokenizes chars!"x OBTW" (.ok (.error (.unclosedMultilineComment r))) ∧ r.start.bytes = 2 :=
  ⟨_, (C89_tokenize _ _).1 rfl, by decide +kernel⟩
example : Tokenizes chars!"x ä" (.panic .strSlice) := (C89_tokenize _ _).1 (by decide +kernel)

/-- **C89** So the specification allows exactly one outcome. -/
theorem C89_unique (code : Str) : ∃ r, Tokenizes code r ∧ ∀ r', Tokenizes code r' → r' = r :=
  ⟨_, (C89_tokenize code _).1 rfl, fun _ h => ((C89_tokenize code _).2 h).symm⟩

-- The tokens of `a,b` are these and no others
example (ts : List Token) (h : Tokenizes chars!"a,b" (.ok (.ok ts))) :
    ts.map (·.tokenType) = [.identifier ['a'], .comma, .identifier ['b']] := by
  obtain ⟨r, _, hr⟩ := C89_unique chars!"a,b"
  have h1 := (hr _ ((C89_tokenize chars!"a,b" _).1 rfl)).trans (hr _ h).symm
  cases h1
  decide +kernel

/-- **C89** Where a source goes on, exactly one thing can be done: skip white space, read a lexeme, report a comment that
is not closed, or panic; and there is only one lexeme to read. -/
theorem C89_next {code : Str} (hne : code ≠ []) :
    (StartsWithWs code ∨ StartsWithLexeme code ∨ Unclosed code ∨ Stuck code) ∧
    (StartsWithWs code → ¬ StartsWithLexeme code ∧ ¬ Unclosed code ∧ ¬ Stuck code) ∧
    (StartsWithLexeme code → ¬ Unclosed code ∧ ¬ Stuck code) ∧ (Unclosed code → ¬ Stuck code) ∧
    ∀ lex rest ty lex' rest' ty', code = lex ++ rest → Lexeme lex rest ty → code = lex' ++ rest' →
      Lexeme lex' rest' ty' → lex = lex' ∧ rest = rest' ∧ ty = ty' := by
  have hw : StartsWithWs code → ∃ rest q, lexStep code .first = .ok (.skip rest q) := by
    rintro ⟨c, r, rfl, hc⟩
    obtain ⟨ws, rest, he, h1, h2⟩ := exists_ws (c :: r)
    have hne : ws ≠ [] := by
      rintro rfl
      exact h2 c r (by simpa using he.symm) hc
    exact ⟨_, _, by rw [he]; exact lexStep_ws hne h1 h2⟩
  have hl : StartsWithLexeme code → ∃ t rest q, lexStep code .first = .ok (.tok t rest q) := by
    rintro ⟨lex, rest, ty, rfl, h⟩
    exact ⟨_, _, _, lexStep_lexeme h _⟩
  refine ⟨?_, fun h => ?_, fun h => ?_, fun h => ?_, ?_⟩
  · rcases step_cases code hne .first with ⟨ws, rest, h, h1, h2, _⟩ | ⟨lex, rest, ty, h, h1, _⟩ | ⟨h, _⟩ | ⟨h, _⟩
    · obtain ⟨c, r, rfl⟩ := List.exists_cons_of_ne_nil h1
      exact .inl ⟨c, r ++ rest, h, h2 c (by simp)⟩
    · exact .inr (.inl ⟨lex, rest, ty, h, h1⟩)
    · exact .inr (.inr (.inl h))
    · exact .inr (.inr (.inr h))
  · obtain ⟨rest, q, e⟩ := hw h
    refine ⟨fun h1 => ?_, fun h1 => ?_, fun h1 => ?_⟩
    · obtain ⟨t, r, q, e1⟩ := hl h1
      simp [e] at e1
    · simp [lexStep_unclosed h1] at e
    · simp [lexStep_stuck h1] at e
  · obtain ⟨t, rest, q, e⟩ := hl h
    refine ⟨fun h1 => ?_, fun h1 => ?_⟩
    · simp [lexStep_unclosed h1] at e
    · simp [lexStep_stuck h1] at e
  · intro h1
    have := lexStep_unclosed h .first
    simp [lexStep_stuck h1] at this
  · rintro lex rest ty lex' rest' ty' rfl h h2 h'
    exact h.unique h' h2

-- Each of the four happens
example : StartsWithWs chars!" x" := ⟨_, _, rfl, by decide⟩
example : StartsWithLexeme chars!"WINDOW" := ⟨chars!"WIN", chars!"DOW", _, rfl, .win _⟩
example : Unclosed chars!"OBTW x" := by
  rcases (C89_next (code := chars!"OBTW x") (by simp)).1 with ⟨c, r, h, hc⟩ | h | h | h
  · cases h
    exact absurd hc (by decide)
  · obtain ⟨lex, rest, ty, h, hl⟩ := h
    have := lexStep_lexeme hl .first
    rw [← h] at this
    cases this
  · exact h
  · have := lexStep_stuck h .first
    cases this
example : Stuck chars!"ä" := .nonAscii _ _ (by decide)
-- The only lexeme at the start of `WINDOW`
example (lex rest : Str) (ty : TokenType) (h : chars!"WINDOW" = lex ++ rest) (hl : Lexeme lex rest ty) :
    lex = chars!"WIN" ∧ rest = chars!"DOW" ∧ ty = .value (.boolean true) :=
  (C89_next (by simp)).2.2.2.2 _ _ _ _ _ _ h hl rfl (.win _)

/-- **C89** What `tokenize_and_parse` does, on every source: the tokenizer's error or panic, or what the grammar gives
for the statements into which its tokens are split. -/
theorem C89_whole (code : Str) :
    (∀ tree, tokenizeAndParse code = .ok (.ok tree) ↔
      ∃ ts s, Tokenizes code (.ok (.ok ts)) ∧ BlockR [] (split ts) (.ok tree s)) ∧
    (∀ e, tokenizeAndParse code = .ok (.error e) ↔ Tokenizes code (.ok (.error e))) ∧
    (∀ p, tokenizeAndParse code = .panic p ↔
      Tokenizes code (.panic p) ∨ ∃ ts, Tokenizes code (.ok (.ok ts)) ∧ BlockR [] (split ts) (.panic p)) := by
  simp only [← C89_tokenize]
  unfold tokenizeAndParse
  rcases h : tokenize code with (e | ts) | q | _
  · simp [pure, bind, Out.bind]
  · have h1 : ∀ tree, (∃ us s, (Out.ok (Except.ok ts) : Out (Except TokenError _)) = .ok (.ok us) ∧
        BlockR [] (split us) (.ok tree s)) ↔ parse ts = .ok tree := by simp [C53_tree_iff]
    have h2 : ∀ p, ((Out.ok (Except.ok ts) : Out (Except TokenError _)) = .panic p ∨
        ∃ us, (Out.ok (Except.ok ts) : Out (Except TokenError _)) = .ok (.ok us) ∧
          BlockR [] (split us) (.panic p)) ↔ parse ts = .panic p := by simp [C53_panic_iff]
    simp only [h1, h2]
    simp only [pure, bind, Out.bind]
    rcases parse ts with tree | q | _ <;> simp
  · simp [bind, Out.bind]
  · simp [bind, Out.bind]

-- The three outcomes, and the tree of the first
example : tokenizeAndParse chars!"GTFO" = .ok (.ok [.gtfo
      { tokenType := .keyword .GTFO, range := { start := .first, stop := Position.first.afterLexeme chars!"GTFO" } }]) ∧
    (∃ ts s tree, Tokenizes chars!"GTFO" (.ok (.ok ts)) ∧ BlockR [] (split ts) (.ok tree s)) := by
  have h : tokenizeAndParse chars!"GTFO" = .ok (.ok [.gtfo
      { tokenType := .keyword .GTFO, range := { start := .first, stop := Position.first.afterLexeme chars!"GTFO" } }]) := rfl
  obtain ⟨ts, s, h1, h2⟩ := ((C89_whole _).1 _).1 h
  exact ⟨h, ts, s, _, h1, h2⟩
example : ∃ e, Tokenizes chars!"OBTW" (.ok (.error e)) := ⟨_, ((C89_whole _).2.1 _).1 rfl⟩
example : Tokenizes chars!"ä" (.panic .strSlice) ∨
    ∃ ts, Tokenizes chars!"ä" (.ok (.ok ts)) ∧ BlockR [] (split ts) (.panic .strSlice) :=
  ((C89_whole _).2.2 _).1 rfl

end Lol
