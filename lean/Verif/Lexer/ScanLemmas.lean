import Verif.Lexer.Run

/-! # Helper lemmas: what a scan says about its tokens and positions -/

namespace Lol

/-- Every token of a scan sits at a lexeme start inside the source. -/
theorem scan_token {code rest : Str} {p q : Position} {ts : List Token} (h : Scan code p ts rest q)
    {t : Token} (ht : t ∈ ts) : ∃ pre lex post before, code = pre ++ lex ++ post ∧
      Lexeme lex post t.tokenType ∧
      Scan code p before (lex ++ post) t.range.start ∧
      (∃ after, ts = before ++ t :: after) ∧
      t.range.stop = t.range.start.afterLexeme lex ∧
      t.range.start.bytes = p.bytes + utf8Len pre ∧ t.range.start.chars = p.chars + pre.length := by
  induction h with
  | refl => simp at ht
  | ws c code p ts code' p' hc hs ih =>
    obtain ⟨pre, lex, post, before, h1, h2, h3, h4, h5, h6, h7⟩ := ih ht
    refine ⟨c :: pre, lex, post, before, by simp [h1], h2, .ws _ _ _ _ _ _ hc h3, h4, h5, ?_, ?_⟩
    · have : (p.afterWs c).bytes = p.bytes + 1 := by unfold Position.afterWs; split <;> rfl
      rw [h6, this, utf8Len_cons, hc.size]; omega
    · have : (p.afterWs c).chars = p.chars + 1 := by unfold Position.afterWs; split <;> rfl
      rw [h7, this, List.length_cons]; omega
  | tok lex rest ty p ts code' p' hl hs ih =>
    rcases List.mem_cons.1 ht with rfl | ht
    · exact ⟨[], lex, rest, [], by simp, hl, .refl _ _, ⟨ts, rfl⟩, rfl, by simp, by simp⟩
    · obtain ⟨pre, lex', post, before, h1, h2, h3, ⟨after, h4⟩, h5, h6, h7⟩ := ih ht
      refine ⟨lex ++ pre, lex', post, _ :: before, by simp [h1], h2, .tok _ _ _ _ _ _ _ hl h3,
        ⟨after, by rw [h4]; rfl⟩, h5, ?_, ?_⟩
      · rw [h6, utf8Len_append, Position.afterLexeme]; simp; omega
      · rw [h7, List.length_append, Position.afterLexeme]; simp; omega

/-- What has been consumed, and the offsets reached. -/
theorem scan_prefix {code rest : Str} {p q : Position} {ts : List Token} (h : Scan code p ts rest q) :
    ∃ pre, code = pre ++ rest ∧ q.bytes = p.bytes + utf8Len pre ∧ q.chars = p.chars + pre.length := by
  induction h with
  | refl => exact ⟨[], by simp⟩
  | ws c code p ts code' p' hc hs ih =>
    obtain ⟨pre, h1, h2, h3⟩ := ih
    refine ⟨c :: pre, by simp [h1], ?_, ?_⟩
    · have : (p.afterWs c).bytes = p.bytes + 1 := by unfold Position.afterWs; split <;> rfl
      rw [h2, this, utf8Len_cons, hc.size]; omega
    · have : (p.afterWs c).chars = p.chars + 1 := by unfold Position.afterWs; split <;> rfl
      rw [h3, this, List.length_cons]; omega
  | tok lex rest ty p ts code' p' hl hs ih =>
    obtain ⟨pre, h1, h2, h3⟩ := ih
    refine ⟨lex ++ pre, by simp [h1], ?_, ?_⟩
    · rw [h2, utf8Len_append, Position.afterLexeme]; simp; omega
    · rw [h3, List.length_append, Position.afterLexeme]; simp; omega

/-- From a reachable lexeme start the remaining tokens are the suffix of the result. -/
theorem scan_at {code rest : Str} {p q : Position} {before ts : List Token}
    (hok : run code p = .ok (.ok ts)) (h : Scan code p before rest q) :
    ∃ after, ts = before ++ after ∧ run rest q = .ok (.ok after) := by
  rw [run_scan h] at hok
  rcases hr : run rest q with (e | us) | _ | _
  · rw [hr] at hok; simp [prepend] at hok
  · rw [hr] at hok
    simp [prepend] at hok
    exact ⟨us, hok.symm, rfl⟩
  · rw [hr] at hok; simp [prepend] at hok
  · rw [hr] at hok; simp [prepend] at hok

/-- The token found at a lexeme start. -/
theorem token_at {code rest : Str} {p q : Position} {before ts : List Token}
    (hok : run code p = .ok (.ok ts)) (h : Scan code p before rest q) (hne : rest ≠ [])
    (hws : ∀ c r, rest = c :: r → ¬ IsWs c) :
    ∃ lex post ty after, rest = lex ++ post ∧ Lexeme lex post ty ∧
      ts = before ++ { tokenType := ty, range := { start := q, stop := q.afterLexeme lex } } :: after := by
  obtain ⟨after, h1, h2⟩ := scan_at hok h
  obtain ⟨c, r, rfl⟩ := List.exists_cons_of_ne_nil hne
  rcases lexeme_or_error c r (hws c r rfl) with ⟨lex, post, ty, he, hl⟩ | hu | hs
  · rw [he, run_lexeme hl] at h2
    rcases hr : run post (q.afterLexeme lex) with (e | us) | _ | _
    · rw [hr] at h2; simp [prepend] at h2
    · rw [hr] at h2
      simp [prepend] at h2
      exact ⟨lex, post, ty, us, he, hl, by rw [h1, ← h2]⟩
    · rw [hr] at h2; simp [prepend] at h2
    · rw [hr] at h2; simp [prepend] at h2
  · rw [run_unclosed hu] at h2; simp at h2
  · rw [run_stuck hs] at h2; simp at h2

/-! ## Order of positions -/

/-- Strictly later, both in bytes and in (line, column). -/
def Position.Lt (a b : Position) : Prop :=
  a.bytes < b.bytes ∧ (a.line < b.line ∨ (a.line = b.line ∧ a.column < b.column))

theorem Position.Lt.trans {a b c : Position} (h : a.Lt b) (h' : b.Lt c) : a.Lt c := by
  unfold Position.Lt at *; omega

def Position.Le (a b : Position) : Prop := a = b ∨ a.Lt b

theorem Position.Le.trans {a b c : Position} (h : a.Le b) (h' : b.Le c) : a.Le c := by
  rcases h with rfl | h
  · exact h'
  · rcases h' with rfl | h'
    · exact .inr h
    · exact .inr (h.trans h')

theorem lt_afterWs (p : Position) (c : Char) : p.Lt (p.afterWs c) := by
  unfold Position.Lt Position.afterWs; split <;> simp <;> omega

theorem lt_afterLexeme (p : Position) {s : Str} (h : s ≠ []) : p.Lt (p.afterLexeme s) := by
  have := utf8Len_pos h
  unfold Position.Lt Position.afterLexeme; simp; omega

theorem scan_le {code rest : Str} {p q : Position} {ts : List Token} (h : Scan code p ts rest q) :
    p.Le q := by
  induction h with
  | refl => exact .inl rfl
  | ws c code p ts code' p' hc hs ih => exact .trans (.inr (lt_afterWs p c)) ih
  | tok lex rest ty p ts code' p' hl hs ih => exact .trans (.inr (lt_afterLexeme p hl.ne_nil)) ih

theorem scan_ordered {code rest : Str} {p q : Position} {ts : List Token} (h : Scan code p ts rest q) :
    (∀ t ∈ ts, p.Le t.range.start ∧ t.range.start.Lt t.range.stop ∧ t.range.stop.Le q) ∧
    ts.Pairwise (fun a b => a.range.stop.Le b.range.start) := by
  induction h with
  | refl => simp
  | ws c code p ts code' p' hc hs ih =>
    refine ⟨fun t ht => ?_, ih.2⟩
    obtain ⟨h1, h2⟩ := ih.1 t ht
    exact ⟨.trans (.inr (lt_afterWs p c)) h1, h2⟩
  | tok lex rest ty p ts code' p' hl hs ih =>
    refine ⟨?_, ?_⟩
    · intro t ht
      rcases List.mem_cons.1 ht with rfl | ht
      · exact ⟨.inl rfl, lt_afterLexeme p hl.ne_nil, scan_le hs⟩
      · obtain ⟨h1, h2⟩ := ih.1 t ht
        exact ⟨.trans (.inr (lt_afterLexeme p hl.ne_nil)) h1, h2⟩
    · exact List.pairwise_cons.2 ⟨fun t ht => (ih.1 t ht).1, ih.2⟩

/-- `a` is the start or the end of the range of a token in `ts`. -/
def PositionIn (a : Position) (ts : List Token) : Prop :=
  ∃ t ∈ ts, a = t.range.start ∨ a = t.range.stop

theorem scan_total {code rest : Str} {p q : Position} {ts : List Token} (h : Scan code p ts rest q)
    {a b : Position} (ha : PositionIn a ts) (hb : PositionIn b ts) : a = b ∨ a.Lt b ∨ b.Lt a := by
  obtain ⟨h1, h2⟩ := scan_ordered h
  clear h
  obtain ⟨t, ht, ha⟩ := ha
  obtain ⟨u, hu, hb⟩ := hb
  have htt := (h1 t ht).2.1
  have huu := (h1 u hu).2.1
  have key : ∀ {x y : Token}, x.range.stop.Le y.range.start → x.range.start.Lt x.range.stop →
      y.range.start.Lt y.range.stop → ∀ {c d : Position}, (c = x.range.start ∨ c = x.range.stop) →
      (d = y.range.start ∨ d = y.range.stop) → c = d ∨ c.Lt d := by
    intro x y hxy hx hy c d hc hd
    have hc' : c.Le x.range.stop := by
      rcases hc with rfl | rfl
      · exact .inr hx
      · exact .inl rfl
    have hd' : y.range.start.Le d := by
      rcases hd with rfl | rfl
      · exact .inl rfl
      · exact .inr hy
    exact (hc'.trans hxy).trans hd'
  rw [List.pairwise_iff_getElem] at h2
  obtain ⟨i, hi, rfl⟩ := List.getElem_of_mem ht
  obtain ⟨j, hj, rfl⟩ := List.getElem_of_mem hu
  rcases Nat.lt_trichotomy i j with hij | hij | hij
  · rcases key (h2 i j hi hj hij) htt huu ha hb with h | h
    · exact .inl h
    · exact .inr (.inl h)
  · subst hij
    rcases ha with rfl | rfl <;> rcases hb with rfl | rfl
    · exact .inl rfl
    · exact .inr (.inl htt)
    · exact .inr (.inr htt)
    · exact .inl rfl
  · rcases key (h2 j i hj hi hij) huu htt hb ha with h | h
    · exact .inl h.symm
    · exact .inr (.inr h)

/-! ## Bounds -/

/-- The counters relative to the byte offset. -/
def Position.Bounded (p : Position) : Prop :=
  1 ≤ p.line ∧ p.line ≤ p.bytes + 1 ∧ 1 ≤ p.column ∧ p.column ≤ p.bytes + 1 ∧ 0 ≤ p.chars ∧
    p.chars ≤ p.bytes

theorem Position.Bounded.first : Position.first.Bounded := by
  unfold Position.Bounded Position.first; simp

theorem Position.Bounded.afterWs {p : Position} (h : p.Bounded) (c : Char) :
    (p.afterWs c).Bounded := by
  unfold Position.Bounded Position.afterWs at *; split <;> simp <;> omega

theorem Position.Bounded.afterLexeme {p : Position} (h : p.Bounded) (s : Str) :
    (p.afterLexeme s).Bounded := by
  have := utf8Len_ge_length s
  unfold Position.Bounded Position.afterLexeme at *; simp; omega

theorem scan_bounded {code rest : Str} {p q : Position} {ts : List Token} (h : Scan code p ts rest q)
    (hp : p.Bounded) : q.Bounded := by
  induction h with
  | refl => exact hp
  | ws c code p ts code' p' hc hs ih => exact ih (hp.afterWs c)
  | tok lex rest ty p ts code' p' hl hs ih => exact ih (hp.afterLexeme lex)

/-! ## Lines and columns -/

/-- The part of `s` after its last newline (all of `s` when there is none). -/
def lastLine (s : Str) : Str := (s.reverse.takeWhile (fun c => c ≠ '\n')).reverse

theorem takeWhile_eq_self {p : Char → Bool} {l : Str} : l.takeWhile p = l ↔ ∀ c ∈ l, p c = true := by
  induction l with
  | nil => simp
  | cons c l ih =>
    by_cases h : p c = true
    · simp [h, ih]
    · simp [h]

theorem lastLine_no {s : Str} (h : '\n' ∉ s) : lastLine s = s := by
  have : s.reverse.takeWhile (fun c => c ≠ '\n') = s.reverse := by
    rw [takeWhile_eq_self]
    intro c hc
    have : c ≠ '\n' := by rintro rfl; exact h (by simpa using hc)
    simp [this]
  rw [lastLine, this, List.reverse_reverse]

theorem lastLine_append_nl (a b : Str) (h : '\n' ∈ b) : lastLine (a ++ b) = lastLine b := by
  unfold lastLine
  rw [List.reverse_append, List.takeWhile_append]
  have : ¬ (b.reverse.takeWhile (fun c => decide (c ≠ '\n'))).length = b.reverse.length := by
    intro hl
    have he : b.reverse.takeWhile (fun c => decide (c ≠ '\n')) = b.reverse :=
      (List.takeWhile_prefix _).eq_of_length hl
    rw [takeWhile_eq_self] at he
    have := he '\n' (by simpa using h)
    simp at this
  rw [if_neg this]

theorem lastLine_append_no (a b : Str) (h : '\n' ∉ b) : lastLine (a ++ b) = lastLine a ++ b := by
  have hb : b.reverse.takeWhile (fun c => decide (c ≠ '\n')) = b.reverse := by
    rw [takeWhile_eq_self]
    intro c hc
    have : c ≠ '\n' := by rintro rfl; exact h (by simpa using hc)
    simp [this]
  unfold lastLine
  rw [List.reverse_append, List.takeWhile_append, if_pos (by rw [hb]), List.reverse_append,
    List.reverse_reverse]

theorem lastLine_snoc_nl (a : Str) : lastLine (a ++ ['\n']) = [] := by
  rw [lastLine_append_nl _ _ (by simp)]; rfl

/-- Lines and columns when no lexeme read so far contains a newline. -/
theorem scan_line {code rest : Str} {p q : Position} {ts : List Token} (h : Scan code p ts rest q)
    (pre : Str) (hline : p.line = 1 + (pre.count '\n' : Nat))
    (hcol : p.column = 1 + (utf8Len (lastLine pre) : Nat))
    (hnl : ∀ t ∈ ts, ∀ a lex b, code = a ++ lex ++ b → t.range.start.bytes = p.bytes + utf8Len a →
      t.range.stop.bytes = t.range.start.bytes + utf8Len lex → '\n' ∉ lex) :
    ∃ mid, code = mid ++ rest ∧ q.line = 1 + ((pre ++ mid).count '\n' : Nat) ∧
      q.column = 1 + (utf8Len (lastLine (pre ++ mid)) : Nat) := by
  induction h generalizing pre with
  | refl => exact ⟨[], by simp, by simpa using hline, by simpa using hcol⟩
  | ws c code p ts code' p' hc hs ih =>
    have hb : (p.afterWs c).bytes = p.bytes + 1 := by unfold Position.afterWs; split <;> rfl
    have := ih (pre ++ [c]) ?_ ?_ ?_
    · obtain ⟨mid, h1, h2, h3⟩ := this
      exact ⟨c :: mid, by simp [h1], by simpa using h2, by simpa using h3⟩
    · by_cases hn : c = '\n'
      · subst hn; simp [Position.afterWs, hline]; omega
      · simp [Position.afterWs, hn, hline]
    · by_cases hn : c = '\n'
      · subst hn; simp [Position.afterWs, lastLine_snoc_nl]
      · have : '\n' ∉ [c] := by simp [Ne.symm hn]
        rw [lastLine_append_no _ _ this]
        simp [Position.afterWs, hn, hcol, hc.size]; omega
    · intro t ht a lex b he h1 h2
      refine hnl t ht (c :: a) lex b (by simp [he]) ?_ h2
      rw [h1, hb, utf8Len_cons, hc.size]; omega
  | tok lex rest ty p ts code' p' hl hs ih =>
    have hlex : '\n' ∉ lex := 
      hnl _ (List.mem_cons_self ..) [] lex rest (by simp) (by simp) rfl
    have := ih (pre ++ lex) ?_ ?_ ?_
    · obtain ⟨mid, h1, h2, h3⟩ := this
      exact ⟨lex ++ mid, by simp [h1], by simpa using h2, by simpa using h3⟩
    · have : lex.count '\n' = 0 := List.count_eq_zero.2 hlex
      simp [Position.afterLexeme, hline, this]
    · rw [lastLine_append_no _ _ hlex]
      simp [Position.afterLexeme, hcol]; omega
    · intro t ht a lex' b he h1 h2
      refine hnl t (by simp [ht]) (lex ++ a) lex' b (by simp [he]) ?_ h2
      rw [h1, utf8Len_append]; simp [Position.afterLexeme]; omega

end Lol
