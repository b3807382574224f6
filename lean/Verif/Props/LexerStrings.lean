import Verif.Props.LexerTokens
import Verif.Props.LexerRun
import Verif.Lexer.StringLit

/-! # Properties of the tokenizer: string literals with characters of more than one byte (C74)

The closing quote is found by counting characters, and the text is then cut by that many bytes
(`src/lexer/mod.rs:70-91`). -/

namespace Lol

/-- A text has as many bytes as characters exactly if it is ASCII. -/
theorem ascii_of_utf8Len {s : Str} (h : utf8Len s = s.length) : ∀ c ∈ s, IsAscii c := by
  induction s with
  | nil => simp
  | cons d s ih =>
    rw [utf8Len_cons, List.length_cons] at h
    have h1 := utf8Len_ge_length s
    have h2 := Char.utf8Size_pos d
    intro c hc
    rcases List.mem_cons.1 hc with rfl | hc
    · have h3 : c.utf8Size = 1 := by omega
      rw [Char.utf8Size_eq_one_iff] at h3
      unfold IsAscii
      have : c.val.toNat ≤ 127 := h3
      exact Nat.lt_succ_of_le this
    · exact ih (by omega) c hc

/-- What is cut off a string literal that is not ASCII is a part of the text between its quotes. -/
theorem cut_inside {body after pay rest : Str} {c : Char} (hn : ¬ ∀ c ∈ body, IsAscii c)
    (he : body ++ '"' :: after = pay ++ c :: rest) (hl : utf8Len pay = body.length) :
    ∃ rest', body = pay ++ c :: rest' ∧ rest = rest' ++ '"' :: after := by
  have h1 : body.length < utf8Len body := by
    have := utf8Len_ge_length body
    have : utf8Len body ≠ body.length := fun h => hn (ascii_of_utf8Len h)
    omega
  obtain ⟨s, hs⟩ := prefix_of_utf8Len_le he.symm (by omega)
  cases s with
  | nil =>
    rw [List.append_nil] at hs
    rw [hs] at h1 hl
    omega
  | cons d s =>
    rw [hs, List.append_assoc, List.append_cancel_left_eq, List.cons_append, List.cons.injEq] at he
    obtain ⟨rfl, he⟩ := he
    exact ⟨s, hs, he.symm⟩

/-- **C74** A closed string literal with a character of more than one byte is cut short: the token has only the
characters whose bytes are as many as the literal has characters, the character after them is taken for the closing
quote, and the tokenizer goes on inside the literal. -/
theorem C74_cut {code body after : Str} {p : Position} {ts : List Token} (h : tokenize code = .ok (.ok ts))
    (hs : LexemeStart code ('"' :: (body ++ '"' :: after)) p) (hb : StringBody body)
    (hn : ¬ ∀ c ∈ body, IsAscii c) :
    ∃ pay c rest, body = pay ++ c :: rest ∧ utf8Len pay = body.length ∧ IsAscii c ∧
      TokenAt ts p ('"' :: (pay ++ [c])) (.value (.string pay)) ∧
      ∃ before, before <+: ts ∧
        Scan code .first before (rest ++ '"' :: after) (p.afterLexeme ('"' :: (pay ++ [c]))) := by
  obtain ⟨⟨before, h1⟩, h2, h3⟩ := hs
  obtain ⟨lex, post, ty, later, k1, k2, k3⟩ := token_at h h1 h2 h3
  have hk : ∃ pay c, lex = '"' :: (pay ++ [c]) ∧ ty = .value (.string pay) ∧
      body ++ '"' :: after = pay ++ c :: post ∧ utf8Len pay = body.length ∧ IsAscii c := by
    by_cases hc : ∃ pay c rest, body ++ '"' :: after = pay ++ c :: rest ∧ utf8Len pay = body.length ∧ IsAscii c
    · obtain ⟨pay, c, rest, e1, e2, e3⟩ := hc
      have hl := Lexeme.stringClosed body after pay c rest hb (by rw [e1]) e2 e3
      obtain ⟨rfl, rfl, rfl⟩ := k2.unique hl (by rw [← k1, e1]; simp)
      exact ⟨pay, c, rfl, rfl, e1, e2, e3⟩
    · have hst : Stuck ('"' :: (body ++ '"' :: after)) :=
        .string body after hb fun pay c rest e1 e2 e3 => hc ⟨pay, c, rest, e1, e2, e3⟩
      have := (C03_panics_iff code .strSlice).2 ⟨rfl, _, p, ⟨⟨before, h1⟩, h2, h3⟩, hst⟩
      rw [this] at h
      cases h
  obtain ⟨pay, c, rfl, rfl, e1, e2, e3⟩ := hk
  obtain ⟨rest, hr, rfl⟩ := cut_inside hn e1 e2
  have h4 := h1.trans (k1 ▸ Scan.tok _ _ _ p _ _ _ k2 (.refl _ _))
  refine ⟨pay, c, rest, hr, e2, e3, ?_, _, ⟨later, ?_⟩, h4⟩
  · rw [k3]
    simp [TokenAt]
  · rw [List.append_assoc]
    exact k3.symm

-- One accented letter: the last character counts as the closing quote, the closing quote opens a string, and the rest of
-- the program is in that string.
example : ∃ ts, tokenize chars!"VISIBLE \"éa\"\nVISIBLE x" = .ok (.ok ts) ∧
    ts.map (·.tokenType) = [.keyword .VISIBLE, .value (.string chars!"é"), .value (.string chars!"\nVISIBLE x")] := by
  refine ⟨_, rfl, ?_⟩
  decide +kernel

example : LexemeStart chars!"\"éa\" x" ('"' :: (chars!"éa" ++ '"' :: chars!" x")) .first ∧ StringBody chars!"éa" ∧
    ¬ ∀ c ∈ chars!"éa", IsAscii c := by
  refine ⟨⟨⟨[], .refl _ _⟩, by simp, ?_⟩, ?_, by decide⟩
  · intro c r h
    cases h
    decide
  · refine ⟨?_, ?_⟩
    · intro u v h
      rcases u with _ | ⟨a, _ | ⟨b, u⟩⟩ <;> simp at h
    · intro u h
      rcases u with _ | ⟨a, _ | ⟨b, u⟩⟩ <;> simp at h

/-- **C74** If no ASCII character of the literal is at the place where it would be cut, `tokenize` panics. -/
theorem C74_panics {code body after : Str} {p : Position}
    (hs : LexemeStart code ('"' :: (body ++ '"' :: after)) p) (hb : StringBody body)
    (hn : ¬ ∀ c ∈ body, IsAscii c)
    (hc : ∀ pay c rest, body = pay ++ c :: rest → utf8Len pay = body.length → ¬ IsAscii c) :
    tokenize code = .panic .strSlice := by
  refine (C03_panics_iff code .strSlice).2 ⟨rfl, _, p, hs, .string body after hb ?_⟩
  intro pay c rest h1 h2
  obtain ⟨rest', h3, -⟩ := cut_inside hn h1 h2
  exact hc pay c rest' h3 h2

-- the closing quote has character index 2, which is the middle of the second letter
example : LexemeStart chars!"\"Çé\"" ('"' :: (chars!"Çé" ++ '"' :: [])) .first ∧ StringBody chars!"Çé" ∧
    (¬ ∀ c ∈ chars!"Çé", IsAscii c) ∧
    ∀ pay c rest, chars!"Çé" = pay ++ c :: rest → utf8Len pay = chars!"Çé".length → ¬ IsAscii c := by
  refine ⟨⟨⟨[], .refl _ _⟩, by simp, ?_⟩, ⟨?_, ?_⟩, by decide, ?_⟩
  · intro c r h
    cases h
    decide
  · intro u v h
    rcases u with _ | ⟨a, _ | ⟨b, u⟩⟩ <;> simp at h
  · intro u h
    rcases u with _ | ⟨a, _ | ⟨b, u⟩⟩ <;> simp at h
  · intro pay c rest h
    rcases pay with _ | ⟨a, _ | ⟨b, u⟩⟩ <;> simp at h
    · obtain ⟨rfl, -⟩ := h
      decide
    · obtain ⟨rfl, rfl, -⟩ := h
      decide

/-- **C74** A string literal that has only characters of more than one byte always makes `tokenize` panic. -/
theorem C74_only_wide {code body after : Str} {p : Position}
    (hs : LexemeStart code ('"' :: (body ++ '"' :: after)) p) (h0 : body ≠ []) (hw : ∀ c ∈ body, ¬ IsAscii c) :
    tokenize code = .panic .strSlice := by
  have hq : ∀ u v, body ≠ u ++ '"' :: v := fun u v h => hw '"' (by rw [h]; simp) (by decide)
  refine C74_panics hs ⟨fun u v h => absurd h (hq u v), fun u h => ?_⟩ ?_ ?_
  · exact hw ':' (by rw [h]; simp) (by decide)
  · obtain ⟨c, r, rfl⟩ := List.exists_cons_of_ne_nil h0
    exact fun h => hw c (by simp) (h c (by simp))
  · intro pay c rest h _
    exact hw c (by rw [h]; simp)

example : tokenize chars!"VISIBLE \"日本\"" = .panic .strSlice ∧ tokenize chars!"VISIBLE \"日本a\"" = .panic .strSlice := by
  decide +kernel

/-- **C74** The token of a closed string literal is the text between the quotes exactly if that text is ASCII. -/
theorem C74_right_iff {code body after : Str} {p : Position} {ts : List Token} (h : tokenize code = .ok (.ok ts))
    (hs : LexemeStart code ('"' :: (body ++ '"' :: after)) p) (hb : StringBody body) :
    TypeAt ts p (.value (.string body)) ↔ ∀ c ∈ body, IsAscii c := by
  refine ⟨fun ht => ?_, fun ha => ⟨_, C15_string_closed h hs hb ha, rfl, rfl⟩⟩
  by_cases hn : ∀ c ∈ body, IsAscii c
  · exact hn
  · obtain ⟨pay, c, rest, e1, -, -, e4, -⟩ := C74_cut h hs hb hn
    have h1 : TypeAt ts p (.value (.string pay)) := ⟨_, e4, rfl, rfl⟩
    rw [typeAt_iff h hs] at h1 ht
    obtain ⟨l1, r1, k1, k2⟩ := h1
    obtain ⟨l2, r2, k3, k4⟩ := ht
    have := (k2.unique k4 (k1.symm.trans k3)).2.2
    simp only [TokenType.value.injEq, TokenValue.string.injEq] at this
    have := congrArg List.length (this.trans e1)
    simp at this

example : ∃ ts, tokenize chars!"\"Ça!\" x\"" = .ok (.ok ts) ∧
    LexemeStart chars!"\"Ça!\" x\"" ('"' :: (chars!"Ça!" ++ '"' :: chars!" x\"")) .first ∧ StringBody chars!"Ça!" := by
  refine ⟨_, rfl, ⟨⟨[], .refl _ _⟩, by simp, ?_⟩, ?_, ?_⟩
  · intro c r h
    cases h
    decide
  · intro u v h
    rcases u with _ | ⟨a, _ | ⟨b, _ | ⟨c, u⟩⟩⟩ <;> simp at h
  · intro u h
    rcases u with _ | ⟨a, _ | ⟨b, _ | ⟨c, u⟩⟩⟩ <;> simp at h

/-- **C74** In a literal with one byte more than it has characters, such as one with one accented letter, and with an
ASCII character at its end, that character is lost and the closing quote opens a new string. -/
theorem C74_new_string {code pay after : Str} {c : Char} {p : Position} {ts : List Token}
    (h : tokenize code = .ok (.ok ts)) (hs : LexemeStart code ('"' :: (pay ++ c :: '"' :: after)) p)
    (hb : StringBody (pay ++ [c])) (hl : utf8Len pay = pay.length + 1) :
    TokenAt ts p ('"' :: (pay ++ [c])) (.value (.string pay)) ∧
      LexemeStart code ('"' :: after) (p.afterLexeme ('"' :: (pay ++ [c]))) := by
  have hn : ¬ ∀ d ∈ pay ++ [c], IsAscii d := by
    intro ha
    have := utf8Len_ascii (s := pay) fun d hd => ha d (by simp [hd])
    omega
  rw [show pay ++ c :: '"' :: after = (pay ++ [c]) ++ '"' :: after by simp] at hs
  obtain ⟨pay', c', rest, e1, e2, e3, e4, before, -, e5⟩ := C74_cut h hs hb hn
  have e6 : utf8Len pay' = utf8Len pay := by rw [e2, hl]; simp
  obtain ⟨t, ht⟩ := prefix_of_utf8Len_le e1.symm (Nat.le_of_eq e6)
  have : t = [] := by
    rw [ht, utf8Len_append] at e6
    exact utf8Len_eq_zero.1 (by omega)
  subst this
  rw [List.append_nil] at ht
  subst ht
  simp only [List.append_cancel_left_eq, List.cons.injEq] at e1
  obtain ⟨rfl, rfl⟩ := e1
  refine ⟨e4, ⟨before, e5⟩, by simp, ?_⟩
  intro d r hd
  simp only [List.cons.injEq] at hd
  rw [← hd.1]
  decide

-- The two bytes of the accented letter: the string ends one character early, and the next one starts at its quote.
example : ∃ ts, tokenize chars!"\"Ça!\" x \"b\"" = .ok (.ok ts) ∧
    ts.map (·.tokenType) = [.value (.string chars!"Ça"), .value (.string chars!" x "), .identifier ['b'],
      .value (.string [])] ∧ utf8Len chars!"Ça" = chars!"Ça".length + 1 := by
  refine ⟨_, rfl, ?_⟩
  decide +kernel

end Lol
