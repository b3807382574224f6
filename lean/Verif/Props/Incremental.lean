import Verif.Lexer.AheadLemmas
import Verif.Props.LexerCompose
import Verif.Props.LexerFloat
import Verif.Props.Cut

/-! # Tokenizing a text again after a change (C84) -/

namespace Lol

theorem Scan.line_at {x c : Str} {p : List Token} {q : Position} (h : Scan (x ++ c) .first p c q) :
    lineColumn p x 0 1 1 = (q.line, q.column) ∧ q.bytes = utf8Len x ∧ q.chars = x.length := by
  obtain ⟨mid, h1, h2, h3⟩ := scan_lineColumn h p (fun t ht => ht) (fun t ht hn => absurd ht hn)
  obtain ⟨pre, g1, g2, g3⟩ := scan_prefix h
  obtain rfl := List.append_cancel_right h1
  obtain rfl := List.append_cancel_right g1
  refine ⟨h2, ?_, ?_⟩
  · rw [g2]; simp [Position.first]
  · rw [g3]; simp [Position.first]

/-- A digit is a symbol when only digits follow up to the end. -/
theorem lexeme_digit {d : Char} {rest : Str} (hd : IsDigit d) (hr : ∀ e ∈ rest, IsDigit e) :
    Lexeme [d] rest (.symbol [d]) := by
  obtain ⟨h0, h9⟩ := hd
  have hn : ∀ e : Char, IsDigit e → e ≠ '.' ∧ e ≠ '\'' ∧ e ≠ '"' ∧ e ≠ ',' ∧ e ≠ '!' ∧ ¬ IsWs e ∧ ¬ IsIdent e ∧
      IsAscii e := by
    rintro e ⟨h1, h2⟩
    have h1 : 48 ≤ e.toNat := h1
    have h2 : e.toNat ≤ 57 := h2
    refine ⟨?_, ?_, ?_, ?_, ?_, ?_, ?_, ?_⟩
    · rintro rfl; revert h1; decide
    · rintro rfl; revert h1; decide
    · rintro rfl; revert h1; decide
    · rintro rfl; revert h1; decide
    · rintro rfl; revert h1; decide
    · rintro (rfl | rfl | rfl) <;> revert h1 <;> decide
    · rintro (rfl | ⟨h, -⟩ | ⟨h, -⟩)
      · revert h2; decide
      · have h : 97 ≤ e.toNat := h
        omega
      · have h : 65 ≤ e.toNat := h
        omega
    · unfold IsAscii; omega
  obtain ⟨n1, n2, n3, n4, n5, n6, n7, n8⟩ := hn d ⟨h0, h9⟩
  refine .symbol d rest n8 n6 n7 n4 n5 n3 ?_ ?_ ?_
  · rintro ⟨r, h⟩
    exact n2 (List.cons.inj h).1.symm
  · rintro ⟨r, h⟩
    exact n1 (List.cons.inj h).1.symm
  · intro lex r n he hl
    have hall : ∀ e ∈ lex ++ r, IsDigit e := by
      rw [← he]
      intro e he
      rcases List.mem_cons.1 he with rfl | he
      · exact ⟨h0, h9⟩
      · exact hr e he
    cases hl with
    | int sgn ds c rest g1 g2 g3 g4 g5 g6 => exact g5 (hall c (by simp))
    | float sgn ds es c rest x g1 g2 g3 g4 g5 g6 => exact g5 (hall c (by simp))

theorem run_digits {s : Str} (h : ∀ d ∈ s, IsDigit d) (p : Position) : ∃ ts, run s p = .ok (.ok ts) := by
  induction s generalizing p with
  | nil => exact ⟨[], run_nil p⟩
  | cons d s ih =>
    obtain ⟨ts, h1⟩ := ih (fun e he => h e (by simp [he])) (p.afterLexeme [d])
    have h2 := run_lexeme (lexeme_digit (rest := s) (h d (by simp)) (fun e he => h e (by simp [he]))) p
    rw [h1] at h2
    exact ⟨_, h2⟩

/-- The tokens before and after a place that is not inside a token. -/
theorem cut_at {code : Str} {ts : List Token} {n : Int} (h : tokenize code = .ok (.ok ts))
    (hn : ∀ t ∈ ts, t.range.stop.bytes ≤ n ∨ n ≤ t.range.start.bytes) :
    ∃ u v, ts = u ++ v ∧ (∀ t ∈ u, t.range.stop.bytes ≤ n) ∧ ∀ t ∈ v, n ≤ t.range.start.bytes := by
  obtain ⟨h1, h2⟩ := C04_ranges_ordered h
  clear h
  induction ts with
  | nil => exact ⟨[], [], rfl, by simp, by simp⟩
  | cons t ts ih =>
    rcases hn t (by simp) with h3 | h3
    · obtain ⟨u, v, rfl, g1, g2⟩ := ih (fun u hu => hn u (by simp [hu])) (fun u hu => h1 u (by simp [hu]))
        (List.pairwise_cons.1 h2).2
      refine ⟨t :: u, v, rfl, ?_, g2⟩
      intro x hx
      rcases List.mem_cons.1 hx with rfl | hx
      · exact h3
      · exact g1 x hx
    · refine ⟨[], t :: ts, rfl, by simp, ?_⟩
      intro x hx
      rcases List.mem_cons.1 hx with rfl | hx
      · exact h3
      · have := (List.pairwise_cons.1 h2).1 x hx
        have := h1 t (by simp)
        omega

/-! ## C84 -/

/-- **C84** The tokens that end at least 9 characters before a change are found again, at their places, whatever the
change is (for ASCII strings that are closed, and symbols that cannot be part of a number). -/
theorem C84_before {a m b b' : Str} {p r ts' : List Token} (h : tokenize (a ++ (m ++ b)) = .ok (.ok (p ++ r)))
    (hm : 9 ≤ m.length) (hp : ∀ t ∈ p, t.Movable ∧ t.range.stop.bytes ≤ utf8Len a)
    (h' : tokenize (a ++ (m ++ b')) = .ok (.ok ts')) : p <+: ts' := by
  obtain ⟨q, hq⟩ := tokenize_scan h
  obtain ⟨a', q', hs⟩ := hq.ahead (b' := b') rfl hm rfl (fun t ht => ⟨(hp t ht).1, by
    have := (hp t ht).2
    show _ ≤ (0 : Int) + _
    omega⟩)
  obtain ⟨after, h1, -⟩ := scan_at h' hs
  exact ⟨after, h1.symm⟩

-- Two tokens, 9 characters, and then a string in place of a number.
example : ∃ p r ts', tokenize (chars!"VISIBLE SMOOSH" ++ (chars!" a AN b A" ++ chars!"N 12 MKAY")) =
      .ok (.ok (p ++ r)) ∧ 9 ≤ chars!" a AN b A".length ∧ p.length = 2 ∧
    (∀ t ∈ p, t.Movable ∧ t.range.stop.bytes ≤ utf8Len chars!"VISIBLE SMOOSH") ∧
    tokenize (chars!"VISIBLE SMOOSH" ++ (chars!" a AN b A" ++ chars!"LL \"12 MKAY")) = .ok (.ok ts') := by
  obtain ⟨ts, h⟩ : ∃ ts, tokenize (chars!"VISIBLE SMOOSH" ++ (chars!" a AN b A" ++ chars!"N 12 MKAY")) =
    .ok (.ok ts) := ⟨_, rfl⟩
  obtain ⟨ts', h'⟩ : ∃ ts, tokenize (chars!"VISIBLE SMOOSH" ++ (chars!" a AN b A" ++ chars!"LL \"12 MKAY")) =
    .ok (.ok ts) := ⟨_, rfl⟩
  refine ⟨ts.take 2, ts.drop 2, ts', by rw [List.take_append_drop]; exact h, by decide, ?_⟩
  rw [h']
  cases h
  refine ⟨rfl, fun t ht => ⟨movable_of (by decide +kernel) t ht, ?_⟩, rfl⟩
  revert t
  decide +kernel

/-- **C84** The 9 characters are necessary: `IF`, followed by 8 characters, is a name or part of a keyword. -/
theorem C84_nine : ∃ t ts t' ts', tokenize (chars!"IF" ++ (chars!" U SAY S" ++ chars!"A ")) = .ok (.ok (t :: ts)) ∧
    tokenize (chars!"IF" ++ (chars!" U SAY S" ++ chars!"O ")) = .ok (.ok (t' :: ts')) ∧
    t.Movable ∧ t.range.stop.bytes ≤ utf8Len chars!"IF" ∧
    t.tokenType = .identifier chars!"IF" ∧ t'.tokenType = .keyword .IF_U_SAY_SO := by
  refine ⟨_, _, _, _, rfl, rfl, movable_of (ts := [_]) (by decide +kernel) _ List.mem_cons_self, by decide +kernel,
    rfl, rfl⟩

/-- **C84** For digits there is no such number: whether a digit is a token of its own can depend on characters as far
behind it as one likes. -/
theorem C84_digits (n : Nat) : ∃ b b' t ts t' ts',
    tokenize (['1'] ++ (List.replicate n '0' ++ b)) = .ok (.ok (t :: ts)) ∧
    tokenize (['1'] ++ (List.replicate n '0' ++ b')) = .ok (.ok (t' :: ts')) ∧
    t.tokenType = .symbol ['1'] ∧ t.range.stop.bytes = 1 ∧ t'.tokenType ≠ .symbol ['1'] := by
  have hd : ∀ d ∈ List.replicate n '0', IsDigit d := by
    intro d hd
    rw [(List.mem_replicate.1 hd).2]
    decide
  obtain ⟨ts, h1⟩ := run_digits hd (Position.first.afterLexeme ['1'])
  obtain ⟨x, hx, -⟩ := C66_value [] ('1' :: List.replicate n '0') []
  have hl : Lexeme ([] ++ ('1' :: List.replicate n '0') ++ ['.']) [' '] (.value (.number (.float x))) :=
    .number _ _ _ (.float [] _ [] ' ' [] x (.inl rfl) (by simp) (by
      intro d hd'
      rcases List.mem_cons.1 hd' with rfl | hd'
      · decide
      · exact hd d hd') (by simp) (by decide) hx)
  have h2 := run_lexeme (lexeme_digit (d := '1') (by decide) hd) .first
  have h3 := run_lexeme hl .first
  rw [h1] at h2
  rw [run_ws (by simp [IsWs]), run_nil] at h3
  obtain ⟨t', h4, h5⟩ : ∃ t' : Token, t'.tokenType ≠ .symbol ['1'] ∧
      tokenize (['1'] ++ (List.replicate n '0' ++ ['.', ' '])) = .ok (.ok [t']) :=
    ⟨⟨.value (.number (.float x)), _⟩, by simp, by simpa [tokenize_eq_run, prepend] using h3⟩
  exact ⟨[], ['.', ' '], ⟨.symbol ['1'], ⟨.first, Position.first.afterLexeme ['1']⟩⟩, ts, t', [],
    by rw [List.append_nil]; exact h2, h5, rfl, rfl, h4⟩

/-- **C84** From a place on that is the same in both texts and is not inside a token, the tokens are the same: their
positions are shifted by the lengths of the texts before it, their lines and, on the first line, their columns by the
line and column that this place has. -/
theorem C84_after {x x' c : Str} {p r p' : List Token} {q' : Position}
    (h : tokenize (x ++ c) = .ok (.ok (p ++ r))) (hp : ∀ t ∈ p, t.range.stop.bytes ≤ utf8Len x)
    (hr : ∀ t ∈ r, utf8Len x ≤ t.range.start.bytes) (h' : Scan (x' ++ c) .first p' c q') :
    tokenize (x' ++ c) = .ok (.ok (p' ++ r.map (Token.shift (lineColumn p x 0 1 1).1
      ((lineColumn p' x' 0 1 1).1 - (lineColumn p x 0 1 1).1) ((lineColumn p' x' 0 1 1).2 - (lineColumn p x 0 1 1).2)
      (utf8Len x' - utf8Len x) (x'.length - x.length)))) := by
  obtain ⟨q0, hq0⟩ := tokenize_scan h
  obtain ⟨q, h1, -⟩ := hq0.reach rfl rfl rfl (fun t ht => by
    have := hp t ht
    show _ ≤ (0 : Int) + _
    omega) (fun t ht => by
    have := hr t ht
    show (0 : Int) + _ ≤ _
    omega)
  obtain ⟨e1, e2, e3⟩ := h1.line_at
  obtain ⟨f1, f2, f3⟩ := h'.line_at
  rw [tokenize_eq_run] at h
  obtain ⟨after, h2, h3⟩ := scan_at h h1
  obtain rfl := List.append_cancel_left h2
  have hs := C18_position_independent c q q' (c.length + 1) (Nat.lt_succ_self _)
  rw [loop_eq_run (Nat.lt_succ_self _), loop_eq_run (Nat.lt_succ_self _), h3] at hs
  rw [tokenize_eq_run, run_scan h', hs, e1, f1, e2, e3, f2, f3]
  rfl

-- In the changed text the same place is on another line and in another column.
example : ∃ p r p' q', tokenize (chars!"a R 1\nb" ++ chars!" R 2\nGTFO") = .ok (.ok (p ++ r)) ∧
    (∀ t ∈ p, t.range.stop.bytes ≤ utf8Len chars!"a R 1\nb") ∧
    (∀ t ∈ r, utf8Len chars!"a R 1\nb" ≤ t.range.start.bytes) ∧
    Scan (chars!"bcd" ++ chars!" R 2\nGTFO") .first p' chars!" R 2\nGTFO" q' ∧
    p.length = 4 ∧ r.length = 3 ∧ lineColumn p chars!"a R 1\nb" 0 1 1 = (2, 2) ∧
    lineColumn p' chars!"bcd" 0 1 1 = (1, 4) := by
  obtain ⟨ts, h⟩ : ∃ ts, tokenize (chars!"a R 1\nb" ++ chars!" R 2\nGTFO") = .ok (.ok ts) := ⟨_, rfl⟩
  obtain ⟨ts', h'⟩ : ∃ ts, tokenize (chars!"bcd" ++ chars!" R 2\nGTFO") = .ok (.ok ts) := ⟨_, rfl⟩
  obtain ⟨q0, hq⟩ := tokenize_scan h'
  obtain ⟨q, h1, -⟩ := hq.reach rfl (List.take_append_drop 1 ts').symm rfl (by
    cases h'
    decide +kernel) (by
    cases h'
    decide +kernel)
  refine ⟨ts.take 4, ts.drop 4, ts'.take 1, q, by rw [List.take_append_drop]; exact h, ?_⟩
  cases h
  cases h'
  exact ⟨by decide +kernel, by decide +kernel, h1, rfl, rfl, by decide +kernel, by decide +kernel⟩

/-- **C84** So after a change of a text only the tokens around the change have to be found again: those that end 9
characters before it stay, and those after a place that is not inside a token of the old or the new text are only
shifted. -/
theorem C84_edit {a m y y' c : Str} {p s r ts' : List Token}
    (h : tokenize (a ++ (m ++ (y ++ c))) = .ok (.ok (p ++ (s ++ r)))) (hm : 9 ≤ m.length)
    (hp : ∀ t ∈ p, t.Movable ∧ t.range.stop.bytes ≤ utf8Len a)
    (hs : ∀ t ∈ s, t.range.stop.bytes ≤ utf8Len (a ++ (m ++ y)))
    (hr : ∀ t ∈ r, utf8Len (a ++ (m ++ y)) ≤ t.range.start.bytes)
    (h' : tokenize (a ++ (m ++ (y' ++ c))) = .ok (.ok ts'))
    (ht : ∀ t ∈ ts', t.range.stop.bytes ≤ utf8Len (a ++ (m ++ y')) ∨ utf8Len (a ++ (m ++ y')) ≤ t.range.start.bytes) :
    ∃ s', ts' = p ++ (s' ++ r.map (Token.shift (lineColumn (p ++ s) (a ++ (m ++ y)) 0 1 1).1
      ((lineColumn (p ++ s') (a ++ (m ++ y')) 0 1 1).1 - (lineColumn (p ++ s) (a ++ (m ++ y)) 0 1 1).1)
      ((lineColumn (p ++ s') (a ++ (m ++ y')) 0 1 1).2 - (lineColumn (p ++ s) (a ++ (m ++ y)) 0 1 1).2)
      (utf8Len y' - utf8Len y) (y'.length - y.length))) := by
  obtain ⟨u, hu⟩ := C84_before h hm hp h'
  obtain ⟨u1, u2, h1, h2, h3⟩ := cut_at h' ht
  have h4 := tokenize_scan h'
  obtain ⟨q0, hq0⟩ := h4
  have hass : ∀ y : Str, a ++ (m ++ (y ++ c)) = (a ++ (m ++ y)) ++ c := by simp
  obtain ⟨q, k1, -⟩ := hq0.reach (hass y') h1 rfl (fun t ht => by
    have := h2 t ht
    show _ ≤ (0 : Int) + _
    omega) (fun t ht => by
    have := h3 t ht
    show (0 : Int) + _ ≤ _
    omega)
  rw [hass] at h k1
  have k2 := C84_after (p := p ++ s) (r := r) (by rw [List.append_assoc p]; exact h) (by
    intro t ht
    rcases List.mem_append.1 ht with ht | ht
    · have := (hp t ht).2
      have h5 := utf8Len_append a (m ++ y)
      omega
    · exact hs t ht) hr k1
  rw [← hass, h'] at k2
  have k3 := Except.ok.inj (Out.ok.inj k2)
  have k4 : p <+: u1 := by
    have l1 : p <+: ts' := ⟨u, hu⟩
    rw [h1] at l1
    rcases List.prefix_or_prefix_of_prefix l1 (List.prefix_append u1 u2) with l2 | ⟨w, l2⟩
    · exact l2
    · cases w with
      | nil => rw [List.append_nil] at l2; rw [l2]; exact List.prefix_refl _
      | cons t w =>
        exfalso
        obtain ⟨v, l3⟩ := l1
        rw [← l2, List.append_assoc, List.append_cancel_left_eq] at l3
        have l4 := h3 t (by rw [← l3]; simp)
        have l5 := (hp t (by rw [← l2]; simp)).2
        have l6 := (C04_ranges_ordered h').1 t (by rw [h1, ← l3]; simp)
        rw [utf8Len_append] at l4
        omega
  obtain ⟨s', rfl⟩ := k4
  have e1 : (utf8Len (a ++ (m ++ y')) : Int) - utf8Len (a ++ (m ++ y)) = utf8Len y' - utf8Len y := by
    simp only [utf8Len_append]; omega
  have e2 : ((a ++ (m ++ y')).length : Int) - (a ++ (m ++ y)).length = y'.length - y.length := by
    simp only [List.length_append]; omega
  rw [e1, e2] at k3
  exact ⟨s', by rw [k3, List.append_assoc]⟩

-- A comment with a line break in place of a number, between a name and the end of the line.
example : ∃ p s r ts', tokenize (chars!"GTFO" ++ (chars!" , x   R " ++ (chars!"12" ++ chars!"\nGTFO"))) =
      .ok (.ok (p ++ (s ++ r))) ∧ p.length = 1 ∧ s.length = 4 ∧ r.length = 1 ∧
    (∀ t ∈ p, t.Movable ∧ t.range.stop.bytes ≤ utf8Len chars!"GTFO") ∧
    (∀ t ∈ s, t.range.stop.bytes ≤ utf8Len (chars!"GTFO" ++ (chars!" , x   R " ++ chars!"12"))) ∧
    (∀ t ∈ r, utf8Len (chars!"GTFO" ++ (chars!" , x   R " ++ chars!"12")) ≤ t.range.start.bytes) ∧
    tokenize (chars!"GTFO" ++ (chars!" , x   R " ++ (chars!"OBTW\nTLDR y" ++ chars!"\nGTFO"))) = .ok (.ok ts') ∧
    (∀ t ∈ ts', t.range.stop.bytes ≤ utf8Len (chars!"GTFO" ++ (chars!" , x   R " ++ chars!"OBTW\nTLDR y")) ∨
      utf8Len (chars!"GTFO" ++ (chars!" , x   R " ++ chars!"OBTW\nTLDR y")) ≤ t.range.start.bytes) := by
  obtain ⟨ts, h⟩ : ∃ ts, tokenize (chars!"GTFO" ++ (chars!" , x   R " ++ (chars!"12" ++ chars!"\nGTFO"))) =
    .ok (.ok ts) := ⟨_, rfl⟩
  obtain ⟨ts', h'⟩ : ∃ ts, tokenize (chars!"GTFO" ++ (chars!" , x   R " ++ (chars!"OBTW\nTLDR y" ++ chars!"\nGTFO"))) =
    .ok (.ok ts) := ⟨_, rfl⟩
  refine ⟨ts.take 1, (ts.drop 1).take 4, (ts.drop 1).drop 4, ts', by
    rw [List.take_append_drop, List.take_append_drop]; exact h, ?_⟩
  rw [h']
  cases h
  cases h'
  refine ⟨rfl, rfl, rfl, fun t ht => ⟨movable_of (by decide +kernel) t ht, ?_⟩, by decide +kernel, by decide +kernel, rfl,
    by decide +kernel⟩
  revert t
  decide +kernel

end Lol
