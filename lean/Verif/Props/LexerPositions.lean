import Verif.Lexer.ComposeLemmas

/-! # Properties of the tokenizer: ranges and positions (C04, C05, C06, C07, C08, C09) -/

namespace Lol

theorem tokenize_scan {code : Str} {ts : List Token} (h : tokenize code = .ok (.ok ts)) :
    ∃ q, Scan code .first ts [] q := by
  rw [tokenize_eq_run] at h
  exact run_ok_iff.1 h

/-! ## C04 -/

/-- Concatenation of (gap, lexeme) pairs. -/
def segText (segs : List (Str × Str)) : Str := segs.flatMap (fun s => s.1 ++ s.2)

theorem segText_cons (s : Str × Str) (segs : List (Str × Str)) :
    segText (s :: segs) = s.1 ++ s.2 ++ segText segs := by simp [segText]

private theorem scan_segs {code rest : Str} {p q : Position} {ts : List Token}
    (h : Scan code p ts rest q) : ∃ (segs : List (Str × Str)) (tail : Str),
      code = segText segs ++ tail ++ rest ∧ WsOnly tail ∧ segs.length = ts.length ∧
      (∀ s ∈ segs, WsOnly s.1 ∧ s.2 ≠ []) ∧
      ∀ i (h1 : i < ts.length) (h2 : i < segs.length),
        ts[i].range.start.bytes = p.bytes + utf8Len (segText (segs.take i) ++ segs[i].1) ∧
        ts[i].range.stop.bytes = p.bytes + utf8Len (segText (segs.take (i + 1))) := by
  induction h with
  | refl => exact ⟨[], [], by simp [segText], by simp [WsOnly], rfl, by simp, by simp⟩
  | ws c code p ts code' p' hc hs ih =>
    obtain ⟨segs, tail, h1, h2, h3, h4, h5⟩ := ih
    have hb : (p.afterWs c).bytes = p.bytes + 1 := by unfold Position.afterWs; split <;> rfl
    have hsz := hc.size
    cases segs with
    | nil =>
      refine ⟨[], c :: tail, by simp [h1, segText], ?_, h3, by simp, by simp⟩
      intro d hd
      rcases List.mem_cons.1 hd with rfl | hd
      · exact hc
      · exact h2 d hd
    | cons s segs =>
      refine ⟨(c :: s.1, s.2) :: segs, tail, by simp [h1, segText], h2, by simpa using h3, ?_, ?_⟩
      · intro x hx
        rcases List.mem_cons.1 hx with rfl | hx
        · refine ⟨?_, (h4 s (by simp)).2⟩
          intro d hd
          rcases List.mem_cons.1 hd with rfl | hd
          · exact hc
          · exact (h4 s (by simp)).1 d hd
        · exact h4 x (by simp [hx])
      · intro i hi hj
        obtain ⟨ha, hb'⟩ := h5 i hi (by simpa using hj)
        rw [ha, hb', hb]
        cases i with
        | zero => simp [segText, hsz]; omega
        | succ i => simp [segText, hsz]; omega
  | tok lex rest ty p ts code' p' hl hs ih =>
    obtain ⟨segs, tail, h1, h2, h3, h4, h5⟩ := ih
    refine ⟨([], lex) :: segs, tail, by simp [h1, segText], h2, by simpa using h3, ?_, ?_⟩
    · intro x hx
      rcases List.mem_cons.1 hx with rfl | hx
      · exact ⟨by simp [WsOnly], hl.ne_nil⟩
      · exact h4 x hx
    · intro i hi hj
      cases i with
      | zero => simp [segText, Position.afterLexeme]
      | succ i =>
        obtain ⟨ha, hb⟩ := h5 i (by simpa using hi) (by simpa using hj)
        simp only [List.getElem_cons_succ, ha, hb]
        simp [segText, Position.afterLexeme]; omega

/-- **C04** The source is gap, lexeme, gap, lexeme, ..., gap: one non-empty lexeme per token, in order, at
exactly the token's byte range, and the gaps are white space only. -/
theorem C04_tokens_tile_source {code : Str} {ts : List Token} (h : tokenize code = .ok (.ok ts)) :
    ∃ (segs : List (Str × Str)) (tail : Str),
      code = (segs.flatMap fun s => s.1 ++ s.2) ++ tail ∧ WsOnly tail ∧ segs.length = ts.length ∧
      (∀ s ∈ segs, WsOnly s.1 ∧ s.2 ≠ []) ∧
      ∀ i (h1 : i < ts.length) (h2 : i < segs.length),
        ts[i].range.start.bytes =
          utf8Len (((segs.take i).flatMap fun s => s.1 ++ s.2) ++ segs[i].1) ∧
        ts[i].range.stop.bytes = utf8Len ((segs.take (i + 1)).flatMap fun s => s.1 ++ s.2) := by
  obtain ⟨q, hq⟩ := tokenize_scan h
  obtain ⟨segs, tail, h1, h2, h3, h4, h5⟩ := scan_segs hq
  refine ⟨segs, tail, by simpa [segText] using h1, h2, h3, h4, ?_⟩
  intro i hi hj
  obtain ⟨ha, hb⟩ := h5 i hi hj
  exact ⟨by rw [ha]; simp [Position.first, segText], by rw [hb]; simp [Position.first, segText]⟩

example : ∃ ts, tokenize chars!" x  OBTW\né TLDR\n" = .ok (.ok ts) ∧ ts.map (fun t => (t.range.start.bytes, t.range.stop.bytes)) =
    [(1, 2), (4, 16)] := by
  refine ⟨_, rfl, ?_⟩
  decide +kernel

/-- **C04** Ranges are non-empty, ordered and disjoint. -/
theorem C04_ranges_ordered {code : Str} {ts : List Token} (h : tokenize code = .ok (.ok ts)) :
    (∀ t ∈ ts, t.range.start.bytes < t.range.stop.bytes) ∧
      ts.Pairwise (fun a b => a.range.stop.bytes ≤ b.range.start.bytes) := by
  obtain ⟨q, hq⟩ := tokenize_scan h
  obtain ⟨h1, h2⟩ := scan_ordered hq
  refine ⟨fun t ht => (h1 t ht).2.1.1, h2.imp ?_⟩
  intro a b hab
  rcases hab with hab | hab
  · rw [hab]; exact Int.le_refl _
  · exact Int.le_of_lt hab.1

example : ∃ ts, tokenize chars!" x R\t\"a b\"\n BTW é" = .ok (.ok ts) ∧ ts.length = 4 := by
  refine ⟨_, rfl, ?_⟩
  decide +kernel

/-! ## C05 -/

/-- **C05** The byte and char fields of a token's range are the UTF-8 and character lengths of the source up
to and including its lexeme; slicing the source by the byte fields yields the lexeme. -/
theorem C05_offsets_exact {code : Str} {ts : List Token} (h : tokenize code = .ok (.ok ts)) {t : Token}
    (ht : t ∈ ts) : ∃ pre lex post, code = pre ++ lex ++ post ∧ lex ≠ [] ∧
      t.range.start.bytes = utf8Len pre ∧ t.range.start.chars = pre.length ∧
      t.range.stop.bytes = utf8Len (pre ++ lex) ∧ t.range.stop.chars = (pre ++ lex).length ∧
      slice code t.range.start.bytes.toNat t.range.stop.bytes.toNat = .ok lex := by
  obtain ⟨q, hq⟩ := tokenize_scan h
  obtain ⟨pre, lex, post, before, h1, h2, h3, h4, h5, h6, h7⟩ := scan_token hq ht
  have hb : t.range.start.bytes = utf8Len pre := by rw [h6]; simp [Position.first]
  have hc : t.range.start.chars = pre.length := by rw [h7]; simp [Position.first]
  have hb' : t.range.stop.bytes = utf8Len (pre ++ lex) := by
    rw [h5, Position.afterLexeme, hb]; simp
  have hc' : t.range.stop.chars = (pre ++ lex).length := by
    rw [h5, Position.afterLexeme, hc]; simp
  refine ⟨pre, lex, post, h1, h2.ne_nil, hb, hc, hb', hc', ?_⟩
  rw [hb, hb']
  exact slice_of h1 rfl rfl

-- a comment with a two-byte character: bytes and chars differ
example : ∃ ts, tokenize chars!"x BTW é" = .ok (.ok ts) ∧
    { tokenType := .commentSingleLine chars!" é", range := {
        start := { line := 1, column := 3, bytes := 2, chars := 2 },
        stop := { line := 1, column := 9, bytes := 8, chars := 7 } } } ∈ ts := by
  refine ⟨_, rfl, ?_⟩
  decide +kernel

/-! ## C06 -/

private theorem lexeme_spells {lex rest : Str} {ty : TokenType} (h : Lexeme lex rest ty)
    (ha : ∀ s, ty = .value (.string s) → ∀ c ∈ s, IsAscii c) : Spells lex ty := by
  cases h with
  | comma => exact .comma
  | bang => exact .bang
  | btw => exact .btw _
  | obtw => exact .obtw _
  | slot => exact .slot
  | ellipsis => exact .ellipsis
  | win => exact .win
  | fail => exact .fail
  | noob => exact .noob
  | keyword k => exact .keyword k
  | number lex rest n hn =>
    cases hn with
    | int sgn ds c rest h1 h2 h3 => exact .int sgn ds h1 h2 h3
    | float sgn ds es c rest x h1 h2 h3 h4 _ h6 => exact .float sgn ds es x h1 h2 h3 h4 h6
  | stringClosed body after pay c rest hb he hl hc =>
    have he' : body ++ '"' :: after = pay ++ c :: rest := by simpa using he
    have hlen : pay.length = body.length := by rw [← hl, utf8Len_ascii (ha pay rfl)]
    obtain ⟨h1, h2⟩ := List.append_inj he' hlen.symm
    simp at h2
    rw [← h1, ← h2.1]
    exact .string body hb
  | stringOpen body hb => exact .stringOpen body hb
  | identifier name rest h1 h2 => exact .identifier _ h1 h2
  | symbol c => exact .symbol c

/-- **C06** The text under a token's range spells its type (for string tokens: when the payload is
ASCII). -/
theorem C06_lexeme_spells_type {code : Str} {ts : List Token} (h : tokenize code = .ok (.ok ts))
    {t : Token} (ht : t ∈ ts) (ha : ∀ s, t.tokenType = .value (.string s) → ∀ c ∈ s, IsAscii c) :
    ∃ lex, slice code t.range.start.bytes.toNat t.range.stop.bytes.toNat = .ok lex ∧
      Spells lex t.tokenType := by
  obtain ⟨q, hq⟩ := tokenize_scan h
  obtain ⟨pre, lex, post, before, h1, h2, h3, h4, h5, h6, h7⟩ := scan_token hq ht
  have hb : t.range.start.bytes = utf8Len pre := by rw [h6]; simp [Position.first]
  have hb' : t.range.stop.bytes = utf8Len (pre ++ lex) := by
    rw [h5, Position.afterLexeme, hb]; simp
  refine ⟨lex, ?_, lexeme_spells h2 ha⟩
  rw [hb, hb']
  exact slice_of h1 rfl rfl

example : ∃ ts, tokenize chars!"-12 \"a:\"b\" " = .ok (.ok ts) ∧
    ts.map (·.tokenType) = [.value (.number (.int (-12))), .value (.string chars!"a:\"b")] := by
  refine ⟨_, rfl, ?_⟩
  decide +kernel

/-- The guard on string payloads in C06 is needed: with a two-byte character in the string the lexeme
loses its closing quote (which then opens a second string). -/
theorem C06_non_ascii_string : ∃ ts, tokenize chars!"\"éa\"" = .ok (.ok ts) ∧
    ts.map (·.tokenType) = [.value (.string chars!"é"), .value (.string [])] := by
  refine ⟨_, rfl, ?_⟩
  decide +kernel

/-! ## C07 -/

/-- The line of an offset: 1 plus the newlines before it. -/
def lineOf (pre : Str) : Int := 1 + (pre.count '\n' : Nat)

/-- The column of an offset: 1 plus the bytes after the last newline before it. -/
def columnOf (pre : Str) : Int := 1 + (utf8Len (lastLine pre) : Nat)

/-- **C07**, part that holds: a token's start has the right line and column when no earlier token's text
contains a newline. The full statement drops the hypothesis `hnl`; it is refuted by `C07_not_general`. -/
theorem C07_line_column_partial {code : Str} {ts before after : List Token} {t : Token}
    (h : tokenize code = .ok (.ok ts)) (hts : ts = before ++ t :: after)
    (hnl : ∀ u ∈ before, ∀ a s b, code = a ++ s ++ b → u.range.start.bytes = utf8Len a →
      u.range.stop.bytes = utf8Len (a ++ s) → '\n' ∉ s) :
    ∃ pre post, code = pre ++ post ∧ t.range.start.bytes = utf8Len pre ∧
      t.range.start.line = lineOf pre ∧ t.range.start.column = columnOf pre := by
  obtain ⟨q, hq⟩ := tokenize_scan h
  have ht : t ∈ ts := by simp [hts]
  have hord := (scan_ordered hq).2
  obtain ⟨pre, lex, post, before', h1, h2, h3, ⟨after', h4⟩, h5, h6, h7⟩ := scan_token hq ht
  have hsub : ∀ u ∈ before', u ∈ before := by
    -- tokens are pairwise distinct, so the two decompositions agree
    have hlt := (scan_ordered hq).1
    have heq : before = before' := by
      have e : before ++ t :: after = before' ++ t :: after' := hts ▸ h4
      rcases List.append_eq_append_iff.1 e with ⟨m, hm, hm'⟩ | ⟨m, hm, hm'⟩
      · cases m with
        | nil => simp [hm]
        | cons x m =>
          simp at hm'
          exfalso
          rw [h4, hm, ← hm'.1] at hord
          have := List.pairwise_append.1 hord
          have hle := this.2.2 t (by simp) t (by simp)
          have hl := (hlt t ht).2.1
          rcases hle with hle | hle
          · rw [hle] at hl; unfold Position.Lt at hl; omega
          · have := hle.trans hl; unfold Position.Lt at this; omega
      · cases m with
        | nil => simp [hm]
        | cons x m =>
          simp at hm'
          exfalso
          rw [hts, hm, ← hm'.1] at hord
          have := List.pairwise_append.1 hord
          have hle := this.2.2 t (by simp) t (by simp)
          have hl := (hlt t ht).2.1
          rcases hle with hle | hle
          · rw [hle] at hl; unfold Position.Lt at hl; omega
          · have := hle.trans hl; unfold Position.Lt at this; omega
    rw [heq]; exact fun u hu => hu
  obtain ⟨mid, hm1, hm2, hm3⟩ := scan_line h3 [] rfl rfl (by
    intro u hu a l b he hs1 hs2
    have e1 : u.range.start.bytes = utf8Len a := by rw [hs1]; simp [Position.first]
    have e2 : u.range.stop.bytes = utf8Len (a ++ l) := by rw [hs2, e1]; simp
    exact hnl u (hsub u hu) a l b he e1 e2)
  refine ⟨mid, lex ++ post, hm1, ?_, by simpa [lineOf] using hm2, by simpa [columnOf] using hm3⟩
  have hmp : mid = pre := by
    rw [h1, List.append_assoc] at hm1
    exact (List.append_cancel_right hm1).symm
  rw [h6, hmp]; simp [Position.first]

example : ∃ ts, tokenize chars!"x R 1\n  y R 2 " = .ok (.ok ts) ∧
    ts.map (fun t => (t.range.start.line, t.range.start.column)) =
      [(1, 1), (1, 3), (1, 5), (2, 3), (2, 5), (2, 7)] := by
  refine ⟨_, rfl, ?_⟩
  decide +kernel

/-- **C07** in general is false: a newline inside a comment or string is not counted. -/
theorem C07_not_general : ∃ code ts t pre post, tokenize code = .ok (.ok ts) ∧ t ∈ ts ∧
    code = pre ++ post ∧ t.range.start.bytes = utf8Len pre ∧ t.range.start.line ≠ lineOf pre ∧
    t.range.start.column ≠ columnOf pre := by
  refine ⟨chars!"OBTW\nTLDR x", _,
    { tokenType := .identifier chars!"x", range := {
        start := { line := 1, column := 11, bytes := 10, chars := 10 },
        stop := { line := 1, column := 12, bytes := 11, chars := 11 } } },
    chars!"OBTW\nTLDR ", chars!"x", rfl, ?_, rfl, ?_, ?_, ?_⟩
  all_goals decide +kernel

/-- **C07**, what the code computes on every source: in the line and column of a token only the newlines outside the
tokens count; a token ends on the line it starts on. -/
theorem C07_exact {code : Str} {ts : List Token} {t : Token} (h : tokenize code = .ok (.ok ts)) (ht : t ∈ ts)
    {pre post : Str} (hc : code = pre ++ post) (hb : t.range.start.bytes = utf8Len pre) :
    (t.range.start.line, t.range.start.column) = lineColumn ts pre 0 1 1 ∧
      t.range.stop.line = t.range.start.line ∧
      t.range.stop.column = t.range.start.column + (t.range.stop.bytes - t.range.start.bytes) := by
  obtain ⟨q, hq⟩ := tokenize_scan h
  have hord := scan_ordered hq
  obtain ⟨pre', lex, post', before, h1, h2, h3, ⟨after, h4⟩, h5, h6, h7⟩ := scan_token hq ht
  refine ⟨?_, by rw [h5]; rfl, by rw [h5]; simp [Position.afterLexeme]; omega⟩
  obtain ⟨mid, m1, m2, m3⟩ := scan_lineColumn h3 ts (fun u hu => by rw [h4]; simp [hu]) (by
    intro u hu hn
    right
    rw [h4] at hu
    rcases List.mem_append.1 hu with hu | hu
    · exact absurd hu hn
    rcases List.mem_cons.1 hu with rfl | hu
    · exact Int.le_refl _
    · have hp := (List.pairwise_append.1 (h4 ▸ hord.2)).2.1
      rcases List.pairwise_cons.1 hp with ⟨hp, _⟩
      have h8 := (hord.1 t ht).2.1.1
      rcases hp u hu with h | h
      · rw [← h]; omega
      · have := h.1; omega)
  have : mid = pre := by
    have e : mid ++ (lex ++ post') = pre ++ post := m1.symm.trans hc
    have hl : utf8Len mid = utf8Len pre := by
      have : Position.first.bytes = 0 := rfl
      omega
    rcases List.append_eq_append_iff.1 e with ⟨u, e1, e2⟩ | ⟨u, e1, e2⟩
    · rw [e1, utf8Len_append] at hl
      have : u = [] := utf8Len_eq_zero.1 (by omega)
      simp [e1, this]
    · rw [e1, utf8Len_append] at hl
      have : u = [] := utf8Len_eq_zero.1 (by omega)
      simp [e1, this]
  subst this
  exact m2.symm

-- the newline in the string does not count, the one after it does
example : ∃ ts, tokenize chars!"x \"a\nb\" y\n z" = .ok (.ok ts) ∧
    ts.map (fun t => (t.range.start.line, t.range.start.column)) = [(1, 1), (1, 3), (1, 9), (2, 2)] ∧
    lineColumn ts chars!"x \"a\nb\" y\n " 0 1 1 = (2, 2) := by
  refine ⟨_, rfl, ?_⟩
  decide +kernel

/-! ## C08 -/

/-- All four counters fit in an `i32`. -/
def Position.FitsI32 (p : Position) : Prop :=
  InI32 p.line ∧ InI32 p.column ∧ InI32 p.bytes ∧ InI32 p.chars

private theorem fits_of_bounded {p : Position} {n : Nat} (h : p.Bounded) (hb : p.bytes ≤ n)
    (hn : n < 2147483647) : p.FitsI32 := by
  unfold Position.Bounded at h
  unfold Position.FitsI32 InI32
  omega

private theorem reach_bytes {code rest : Str} {ts : List Token} {q : Position}
    (h : Scan code .first ts rest q) : q.bytes ≤ utf8Len code ∧
      (q.afterLexeme rest).bytes = utf8Len code := by
  obtain ⟨pre, h1, h2, _⟩ := scan_prefix h
  rw [h1, Position.afterLexeme, h2]
  simp [Position.first]
  omega

/-- **C08** For sources below 2^31 - 1 bytes every counter of every position the tokenizer reaches fits in an
`i32`: the current position before each lexeme or white space character (`Scan`), every token range, and
the range of the error. -/
theorem C08_no_i32_overflow {code : Str} (hlen : utf8Len code < 2147483647) :
    (∀ ts rest q, Scan code .first ts rest q → q.FitsI32) ∧
    (∀ ts, tokenize code = .ok (.ok ts) →
      ∀ t ∈ ts, t.range.start.FitsI32 ∧ t.range.stop.FitsI32) ∧
    (∀ r, tokenize code = .ok (.error (.unclosedMultilineComment r)) →
      r.start.FitsI32 ∧ r.stop.FitsI32) := by
  have h0 : ∀ ts rest q, Scan code .first ts rest q → q.FitsI32 := by
    intro ts rest q hq
    exact fits_of_bounded (scan_bounded hq Position.Bounded.first) (reach_bytes hq).1 hlen
  refine ⟨h0, ?_, ?_⟩
  · intro ts h t ht
    obtain ⟨q, hq⟩ := tokenize_scan h
    obtain ⟨pre, lex, post, before, h1, h2, h3, h4, h5, h6, h7⟩ := scan_token hq ht
    refine ⟨h0 _ _ _ h3, ?_⟩
    have h8 : Scan code .first (before ++ [t]) post t.range.stop := by
      refine h3.trans ?_
      have := Scan.tok lex post t.tokenType t.range.start [] _ _ h2 (.refl post _)
      rw [← h5] at this
      exact this
    exact h0 _ _ _ h8
  · intro r h
    rw [tokenize_eq_run, run_error_iff] at h
    obtain ⟨ts, rest, q, h1, h2, h3⟩ := h
    simp at h3
    subst h3
    refine ⟨h0 _ _ _ h1, ?_⟩
    refine fits_of_bounded ((scan_bounded h1 Position.Bounded.first).afterLexeme rest) ?_ hlen
    rw [(reach_bytes h1).2]; exact Int.le_refl _

example : utf8Len chars!"x R \"é:é\" OBTW" < 2147483647 := by decide +kernel

/-! ## C09 -/

/-- **C09** For two positions in the ranges of one result, `==` (line and column) is equality of byte offsets,
and `<` (bytes) is the lexicographic order of (line, column). -/
theorem C09_position_order {code : Str} {ts : List Token} (h : tokenize code = .ok (.ok ts))
    {a b : Position} (ha : ∃ t ∈ ts, a = t.range.start ∨ a = t.range.stop)
    (hb : ∃ t ∈ ts, b = t.range.start ∨ b = t.range.stop) :
    (Position.eq a b = true ↔ a.bytes = b.bytes) ∧
    (Position.cmp a b = .lt ↔ a.line < b.line ∨ (a.line = b.line ∧ a.column < b.column)) ∧
    (Position.cmp a b = .eq ↔ Position.eq a b = true) := by
  obtain ⟨q, hq⟩ := tokenize_scan h
  have hcmp : Position.cmp a b = .lt ↔ a.bytes < b.bytes := by
    unfold Position.cmp; exact Int.compare_eq_lt
  have hcmp' : Position.cmp a b = .eq ↔ a.bytes = b.bytes := by
    unfold Position.cmp; exact Int.compare_eq_eq
  have heq : Position.eq a b = true ↔ a.line = b.line ∧ a.column = b.column := by
    simp [Position.eq]
  rw [hcmp, hcmp', heq]
  rcases scan_total hq ha hb with rfl | hlt | hlt
  · simp
  · unfold Position.Lt at hlt; omega
  · unfold Position.Lt at hlt; omega

example : ∃ ts, tokenize chars!"x\ny z" = .ok (.ok ts) ∧ ts.length = 3 := by
  refine ⟨_, rfl, ?_⟩
  decide +kernel

end Lol
