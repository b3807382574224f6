import Verif.Lexer.Lemmas

/-! # Helper lemmas: `parse_string` -/

namespace Lol

theorem QuotesEscaped.nil : QuotesEscaped [] := by
  intro u v h; simp at h

theorem QuotesEscaped.cons {c : Char} {s : Str} (hc : c ≠ '"') (h : QuotesEscaped s) :
    QuotesEscaped (c :: s) := by
  intro u v he
  cases u with
  | nil => simp at he; exact absurd he.1 hc
  | cons d u =>
    simp at he
    obtain ⟨u', rfl⟩ := h u v he.2
    exact ⟨d :: u', by simp⟩

theorem QuotesEscaped.esc {s : Str} (h : QuotesEscaped s) : QuotesEscaped (':' :: '"' :: s) := by
  intro u v he
  cases u with
  | nil => simp at he
  | cons d u =>
    cases u with
    | nil => simp at he; exact ⟨[], by simp [he.1.symm]⟩
    | cons e u =>
      simp at he
      obtain ⟨u', rfl⟩ := h u v he.2.2
      exact ⟨d :: e :: u', by simp⟩

theorem StringBody.nil : StringBody [] := ⟨.nil, by intro u h; simp at h⟩

theorem StringBody.cons {c : Char} {s : Str} (hc : c ≠ '"') (hc' : c = ':' → s ≠ [])
    (h : StringBody s) : StringBody (c :: s) := by
  refine ⟨.cons hc h.1, ?_⟩
  intro u he
  cases u with
  | nil => simp at he; exact hc' he.1 he.2
  | cons d u => simp at he; exact h.2 u he.2

theorem StringBody.esc {s : Str} (h : StringBody s) : StringBody (':' :: '"' :: s) := by
  refine ⟨.esc h.1, ?_⟩
  intro u he
  cases u with
  | nil => simp at he
  | cons d u =>
    cases u with
    | nil => simp at he
    | cons e u => simp at he; exact h.2 u he.2.2

theorem strScan_cases (i : Nat) (cs : Str) :
    (∃ body after, cs = body ++ '"' :: after ∧ StringBody body ∧
      strScan i cs = some (i + body.length)) ∨
    (QuotesEscaped cs ∧ strScan i cs = none) := by
  fun_induction strScan i cs with
  | case1 i => exact .inr ⟨.nil, rfl⟩
  | case2 i ih => exact .inr ⟨.cons (by decide) .nil, by simp [strScan]⟩
  | case3 i ds ih =>
    rcases ih with ⟨body, after, rfl, h2, h3⟩ | ⟨h1, h2⟩
    · exact .inl ⟨':' :: '"' :: body, after, by simp, h2.esc, by rw [h3]; simp; omega⟩
    · exact .inr ⟨h1.esc, h2⟩
  | case4 i d ds hd ih =>
    rcases ih with ⟨body, after, h1, h2, h3⟩ | ⟨h1, h2⟩
    · refine .inl ⟨':' :: body, after, by simp [h1], h2.cons (by decide) ?_, by rw [h3]; simp; omega⟩
      rintro _ rfl
      simp at h1
      exact hd h1.1
    · exact .inr ⟨h1.cons (by decide), h2⟩
  | case5 i cs hc => exact .inl ⟨[], cs, by simp, .nil, by simp⟩
  | case6 i c cs hc hq ih =>
    rcases ih with ⟨body, after, h1, h2, h3⟩ | ⟨h1, h2⟩
    · exact .inl ⟨c :: body, after, by simp [h1], h2.cons hq (fun h => absurd h hc),
        by rw [h3]; simp; omega⟩
    · exact .inr ⟨h1.cons hq, h2⟩

theorem body_not_escaped {body after : Str} (h : StringBody body) :
    ¬ QuotesEscaped (body ++ '"' :: after) := by
  intro he
  obtain ⟨u, hu⟩ := he body after rfl
  exact h.2 u hu

theorem body_le {b1 a1 b2 a2 : Str} (h1 : StringBody b1) (h2 : StringBody b2)
    (h : b1 ++ '"' :: a1 = b2 ++ '"' :: a2) : b2.length ≤ b1.length := by
  rcases List.append_eq_append_iff.1 h with ⟨t, ht, _⟩ | ⟨t, ht, _⟩
  · -- `b2 = b1 ++ t`
    cases t with
    | nil => simp [ht]
    | cons c t =>
      rename_i hh
      simp at hh
      obtain ⟨rfl, -⟩ := hh
      obtain ⟨u, hu⟩ := h2.1 b1 t ht
      exact absurd hu (h1.2 u)
  · simp [ht]

theorem body_unique {b1 a1 b2 a2 : Str} (h1 : StringBody b1) (h2 : StringBody b2)
    (h : b1 ++ '"' :: a1 = b2 ++ '"' :: a2) : b1 = b2 ∧ a1 = a2 := by
  have hl : b1.length = b2.length := Nat.le_antisymm (body_le h2 h1 h.symm) (body_le h1 h2 h)
  have := List.append_inj h hl
  exact ⟨this.1, by simpa using this.2⟩

theorem strScan_body {body after : Str} (i : Nat) (h : StringBody body) :
    strScan i (body ++ '"' :: after) = some (i + body.length) := by
  rcases strScan_cases i (body ++ '"' :: after) with ⟨b, a, he, hb, hs⟩ | ⟨he, _⟩
  · rw [hs, (body_unique h hb he).1]
  · exact absurd he (body_not_escaped h)

theorem strScan_open {s : Str} (i : Nat) (h : QuotesEscaped s) : strScan i s = none := by
  rcases strScan_cases i s with ⟨b, a, rfl, hb, hs⟩ | ⟨_, hn⟩
  · exact absurd h (body_not_escaped hb)
  · exact hn

theorem parseString_ne {c : Char} {cs : Str} (h : c ≠ '"') : parseString (c :: cs) = .ok none := by
  simp [parseString, h]

theorem parseString_open {s : Str} (h : QuotesEscaped s) :
    parseString ('"' :: s) = .ok (some ('"' :: s, s)) := by
  have h1 : sliceFrom ('"' :: s) 1 = .ok s := sliceFrom_of (a := ['"']) rfl (by decide)
  simp [parseString, strScan_open 1 h, h1]

theorem parseString_closed {body after pay rest : Str} {c : Char} (h : StringBody body)
    (he : body ++ '"' :: after = pay ++ c :: rest) (hl : utf8Len pay = body.length)
    (hc : IsAscii c) :
    parseString ('"' :: (body ++ '"' :: after)) = .ok (some ('"' :: (pay ++ [c]), pay)) := by
  have hq : utf8Len ['"'] = 1 := by decide
  have h1 : sliceTo ('"' :: (body ++ '"' :: after)) (1 + body.length + 1) =
      .ok ('"' :: (pay ++ [c])) := by
    apply sliceTo_of (b := rest)
    · simp [he]
    · have := utf8Size_ascii.2 hc
      have e : '"'.utf8Size = 1 := by decide
      simp [this, hl, e]; omega
  have h2 : slice ('"' :: (body ++ '"' :: after)) 1 (1 + body.length) = .ok pay := by
    apply slice_of (a := ['"']) (c := c :: rest)
    · simp [he]
    · decide
    · rw [utf8Len_append, hq, hl]
  simp only [parseString, ne_eq, not_true_eq_false, if_false, strScan_body 1 h, h1, h2]

theorem prefix_of_utf8Len_le {a b c d : Str} (h : a ++ b = c ++ d) (hl : utf8Len a ≤ utf8Len c) :
    ∃ t, c = a ++ t := by
  rcases List.append_eq_append_iff.1 h with ⟨t, ht, _⟩ | ⟨t, ht, _⟩
  · exact ⟨t, ht⟩
  · have hz : utf8Len t = 0 := by rw [ht] at hl; simp at hl; omega
    rw [utf8Len_eq_zero.1 hz] at ht
    exact ⟨[], by simp [ht]⟩

theorem parseString_stuck {body after : Str} (h : StringBody body)
    (hn : ∀ pay c rest, body ++ '"' :: after = pay ++ c :: rest → utf8Len pay = body.length →
      ¬ IsAscii c) :
    parseString ('"' :: (body ++ '"' :: after)) = .panic .strSlice := by
  have e : '"'.utf8Size = 1 := by decide
  simp only [parseString, ne_eq, not_true_eq_false, if_false, strScan_body 1 h]
  rcases sliceTo_cases ('"' :: (body ++ '"' :: after)) (1 + body.length + 1) with
    ⟨a, b, h1, h2, h3⟩ | ⟨_, h3⟩
  · rw [h3]
    rcases sliceTo_cases ('"' :: (body ++ '"' :: after)) (1 + body.length) with
      ⟨a', b', h1', h2', h3'⟩ | ⟨_, h3'⟩
    · -- both slices exist: contradiction with `hn`
      exfalso
      obtain ⟨t, rfl⟩ := prefix_of_utf8Len_le (h1'.symm.trans h1) (by omega)
      have ht : utf8Len t = 1 := by simp at h2; omega
      cases t with
      | nil => simp at ht
      | cons c t =>
        have hp := utf8Size_pos c
        have ht0 : utf8Len t = 0 := by simp at ht; omega
        have hc : c.utf8Size = 1 := by simp at ht; omega
        rw [utf8Len_eq_zero.1 ht0] at h1
        cases a' with
        | nil => simp at h2'
                 omega
        | cons q pay =>
          simp at h1
          refine hn pay c b (by simpa using h1.2) ?_ (utf8Size_ascii.1 hc)
          rw [← h1.1] at h2'
          simp [e] at h2'
          omega
    · simp [slice, h3']
  · rw [h3]

/-- All outcomes of `parse_string`. -/
theorem parseString_cases (cs : Str) :
    (∃ body after pay c rest, cs = body ++ '"' :: after ∧ StringBody body ∧ cs = pay ++ c :: rest ∧
      utf8Len pay = body.length ∧ IsAscii c ∧
      parseString ('"' :: cs) = .ok (some ('"' :: (pay ++ [c]), pay))) ∨
    (QuotesEscaped cs ∧ parseString ('"' :: cs) = .ok (some ('"' :: cs, cs))) ∨
    (Stuck ('"' :: cs) ∧ parseString ('"' :: cs) = .panic .strSlice) := by
  rcases strScan_cases 1 cs with ⟨body, after, rfl, hb, -⟩ | ⟨h, -⟩
  · by_cases hn : ∃ pay c rest, body ++ '"' :: after = pay ++ c :: rest ∧ utf8Len pay = body.length ∧
      IsAscii c
    · obtain ⟨pay, c, rest, h1, h2, h3⟩ := hn
      exact .inl ⟨body, after, pay, c, rest, rfl, hb, h1, h2, h3, parseString_closed hb h1 h2 h3⟩
    · have hn' : ∀ pay c rest, body ++ '"' :: after = pay ++ c :: rest → utf8Len pay = body.length →
          ¬ IsAscii c := fun pay c rest h1 h2 h3 => hn ⟨pay, c, rest, h1, h2, h3⟩
      exact .inr (.inr ⟨.string body after hb hn', parseString_stuck hb hn'⟩)
  · exact .inr (.inl ⟨h, parseString_open h⟩)

end Lol
