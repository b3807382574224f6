import Verif.Lexer.ScanLemmas

/-! # Properties of the tokenizer: termination and panics (C01, C02, C03) -/

namespace Lol

/-- **C01** `tokenize` comes back on every string: the loop, given one round per character (plus the final
test), never runs out of rounds. -/
theorem C01_tokenize_terminates (code : Str) : tokenize code ≠ .outOfFuel :=
  run_not_outOfFuel code .first

/-- **C01** The outcome does not depend on the bound on the number of rounds, from any position. -/
theorem C01_bound_irrelevant (code : Str) (p : Position) (fuel : Nat) (h : code.length < fuel) :
    tokenizeLoop fuel code p ≠ .outOfFuel ∧
      tokenizeLoop fuel code p = tokenizeLoop (code.length + 1) code p := by
  have := loop_eq_run h p
  exact ⟨this ▸ run_not_outOfFuel code p, this⟩

-- a source of 16 characters, 20 rounds allowed
example : (chars!"VISIBLE \"HAI\", 12").length < 20 ∧
    tokenizeLoop 20 chars!"VISIBLE \"HAI\", 12" .first ≠ .outOfFuel := by decide +kernel

/-- **C02** No panic on ASCII sources. -/
theorem C02_no_panic_on_ascii (code : Str) (h : ∀ c ∈ code, IsAscii c) :
    ∃ r, tokenize code = .ok r := by
  rw [tokenize_eq_run]
  rcases run_cases code .first with ⟨us, q, _, h2⟩ | ⟨us, rest, q, _, _, h2⟩ | ⟨us, rest, q, h0, h1, _⟩
  · exact ⟨_, h2⟩
  · exact ⟨_, h2⟩
  · exfalso
    obtain ⟨pre, hpre, _⟩ := scan_prefix h0
    have hrest : ∀ c ∈ rest, IsAscii c := fun c hc => h c (by rw [hpre]; simp [hc])
    cases h1 with
    | nonAscii c r hc => exact hc (hrest c (by simp))
    | string body after hb hn =>
      refine hn body '"' after rfl ?_ (by decide)
      exact utf8Len_ascii (fun c hc => hrest c (by simp [hc]))

-- an ASCII source with every kind of trouble (unclosed comment after good tokens)
example : (∀ c ∈ chars!"x R \"a, 5 OBTW", IsAscii c) ∧
    tokenize chars!"x R 5. OBTW" = .ok (.error (.unclosedMultilineComment
      { start := { line := 1, column := 8, bytes := 7, chars := 7 },
        stop := { line := 1, column := 12, bytes := 11, chars := 11 } })) := by decide +kernel

/-- **C03** The exact panic condition: some lexeme start is stuck, that is, it is a character of more than
one byte or a string literal whose closing quote's character index is not a usable byte index. -/
theorem C03_panics_iff (code : Str) (s : PanicSite) :
    tokenize code = .panic s ↔ s = .strSlice ∧ ∃ rest p, LexemeStart code rest p ∧ Stuck rest := by
  rw [tokenize_eq_run, run_panic_iff]
  constructor
  · rintro ⟨hs, ts, rest, q, h1, h2⟩
    obtain ⟨c, r, rfl, hc⟩ := h2.head_not_ws
    refine ⟨hs, _, q, ⟨⟨ts, h1⟩, by simp, ?_⟩, h2⟩
    intro d r' he
    simp at he
    exact he.1 ▸ hc
  · rintro ⟨hs, rest, p, ⟨⟨ts, h1⟩, _⟩, h2⟩
    exact ⟨hs, ts, rest, p, h1, h2⟩

/-- **C03** as asked is false: a letter with an accent makes `tokenize` panic, and so does a string with one
accented letter. -/
theorem C03_not_total : ¬ ∀ code, ∃ r, tokenize code = .ok r := by
  intro h
  obtain ⟨r, hr⟩ := h chars!"VISIBLE \"é\""
  have : tokenize chars!"VISIBLE \"é\"" = .panic .strSlice := by decide +kernel
  rw [this] at hr
  cases hr

example : tokenize chars!"é" = .panic .strSlice := by decide +kernel
example : tokenize chars!"x … y" = .panic .strSlice := by decide +kernel

/-- **C03**, part that holds: `tokenize` returns whenever no lexeme start is stuck. The full statement
(`∀ code, ∃ r, tokenize code = .ok r`) is refuted by `C03_not_total`. -/
theorem C03_no_panic_partial (code : Str) (h : ∀ rest p, LexemeStart code rest p → ¬ Stuck rest) :
    ∃ r, tokenize code = .ok r := by
  cases hr : tokenize code with
  | ok r => exact ⟨r, rfl⟩
  | panic s =>
    obtain ⟨_, rest, p, h1, h2⟩ := (C03_panics_iff code s).1 hr
    exact absurd h2 (h rest p h1)
  | outOfFuel => exact absurd hr (C01_tokenize_terminates code)

-- non-ASCII characters inside comments are harmless: this source meets the hypothesis
example : ∀ rest p, LexemeStart chars!"x BTW é…" rest p → ¬ Stuck rest := by
  intro rest p h1 h2
  have := (C03_panics_iff _ .strSlice).2 ⟨rfl, rest, p, h1, h2⟩
  revert this
  decide +kernel

end Lol
