import Verif.Lexer.CostLemmas

/-! # The work that `tokenize` does (C71) -/

namespace Lol

/-- **C71** Counting changes nothing: the outcome is that of `tokenize`. -/
theorem C71_same (text : Str) : (tokenizeCounted text).result = tokenize text := tokenizeCounted_result text

/-- **C71** If no run of digits in the text is longer than `r`, `tokenize` looks at no more than `4 * r + 377`
characters for each byte of the text, whether it succeeds, reports an error or panics. -/
theorem C71_linear {r : Nat} {text : Str} (h : ∀ ds, ds <:+: text → (∀ d ∈ ds, IsDigit d) → ds.length ≤ r) :
    (tokenizeCounted text).count ≤ (4 * r + 377) * utf8Len text :=
  tokenizeLoopCounted_le _ h _

/-- The hypothesis of `C71_linear`, for a concrete text: look at the digits from each place on. -/
theorem runsWithin_of {r : Nat} {text : Str}
    (h : ∀ i ∈ List.range (text.length + 1), ((text.drop i).takeWhile fun c => decide (IsDigit c)).length ≤ r) :
    ∀ ds, ds <:+: text → (∀ d ∈ ds, IsDigit d) → ds.length ≤ r := by
  rintro ds ⟨u, v, rfl⟩ hd
  have h1 := h u.length (by simp; omega)
  rw [List.append_assoc, List.drop_left, List.takeWhile_append_of_pos (by simpa using hd), List.length_append] at h1
  omega

-- a program without two digits side by side is read with at most 381 looks for each byte
example : (tokenizeCounted chars!"HAI 1.2\nVISIBLE \"OH\" BTW :)\nKTHXBYE").count ≤ 381 * 35 :=
  C71_linear (r := 1) (runsWithin_of (by decide +kernel))

-- the counter, for this program and for two that fail
example : (tokenizeCounted chars!"HAI 1.2\nVISIBLE \"OH\" BTW :)\nKTHXBYE").count = 1166 := by decide +kernel
example : (tokenizeCounted chars!"OBTW no end").count = 33 := by decide +kernel
example : (tokenizeCounted chars!"…").count = 17 := by decide +kernel

/-- **C71** In any case the work is at most quadratic in the size of the text. -/
theorem C71_bound (text : Str) : (tokenizeCounted text).count ≤ (4 * text.length + 377) * utf8Len text :=
  C71_linear fun _ h _ => h.length_le

/-- **C71** Unless it panics, `tokenize` looks at each character at least once. -/
theorem C71_all {text : Str} {r : Except TokenError (List Token)} (h : tokenize text = .ok r) :
    text.length ≤ (tokenizeCounted text).count :=
  tokenizeLoopCounted_ge _ h

-- an unclosed comment is an error, which is reported after all characters were looked at
example : 11 ≤ (tokenizeCounted chars!"OBTW no end").count :=
  C71_all (text := chars!"OBTW no end") (r := .error (.unclosedMultilineComment
    { start := ⟨1, 1, 0, 0⟩, stop := ⟨1, 12, 11, 11⟩ })) (by decide +kernel)

/-- **C71** The quadratic bound is met: at the end of a text digits are no number, and `tokenize` makes each one a token
of its own, after it has looked at all the digits that are left. -/
theorem C71_quadratic {text : Str} (h : ∀ d ∈ text, IsDigit d) :
    (∃ tokens, tokenize text = .ok (.ok tokens) ∧ tokens.length = text.length) ∧
      text.length * (text.length + 1) ≤ 2 * (tokenizeCounted text).count :=
  ⟨scan_digits h _, tokenizeLoopCounted_digits _ _ (Nat.lt_succ_self _) h⟩

-- 1000 digits make 1000 tokens, and more than 500000 looks
example : 1000 * 1001 ≤ 2 * (tokenizeCounted (List.replicate 1000 '7')).count := by
  have h := (C71_quadratic (text := List.replicate 1000 '7')
    (fun d h => by rw [List.eq_of_mem_replicate h]; decide)).2
  rw [List.length_replicate] at h
  exact h

/-- **C71** Hence no bound that is linear in the size of the text holds for all texts. -/
theorem C71_not_linear (k : Nat) : ∃ text : Str, k * utf8Len text < (tokenizeCounted text).count := by
  refine ⟨List.replicate (2 * k + 1) '7', ?_⟩
  have hd : ∀ d ∈ List.replicate (2 * k + 1) '7', IsDigit d := fun d h => by
    rw [List.eq_of_mem_replicate h]; decide
  have h := (C71_quadratic hd).2
  have hu : utf8Len (List.replicate (2 * k + 1) '7') = 2 * k + 1 := by
    rw [utf8Len_ascii fun c hc => (hd c hc).ascii, List.length_replicate]
  rw [hu]
  rw [List.length_replicate] at h
  have h1 : (2 * k + 1) * (2 * k + 1 + 1) = 2 * (k * (2 * k + 1)) + 2 * (2 * k + 1) := by
    rw [show 2 * k + 1 + 1 = 2 * k + 2 by omega, Nat.mul_add, Nat.mul_comm (2 * k + 1) (2 * k), Nat.mul_assoc]
    omega
  omega

end Lol
