import Verif.Lexer.Step

/-! # Helper lemmas: the whole tokenizer loop against `Scan` -/

namespace Lol

theorem Lexeme.ne_nil {lex rest : Str} {ty : TokenType} (h : Lexeme lex rest ty) : lex ≠ [] := by
  cases h with
  | keyword k =>
    obtain ⟨c, r, ht, _⟩ := k.spelling_head
    simp [ht]
  | number lex rest n h =>
    obtain ⟨c, r, ht, _⟩ := h.head
    simp [ht]
  | identifier name rest h => exact h
  | _ => simp

theorem Lexeme.head_not_ws {lex rest : Str} {ty : TokenType} (h : Lexeme lex rest ty) :
    ∃ c r, lex = c :: r ∧ ¬ IsWs c := by
  cases h with
  | keyword k =>
    obtain ⟨c, r, ht, h1, h2⟩ := k.spelling_head
    refine ⟨c, r, ht, ?_⟩
    rintro (rfl | rfl | rfl) <;> revert h1 <;> decide
  | number lex rest n h =>
    obtain ⟨c, r, ht, hh, _⟩ := h.head
    exact ⟨c, r, ht, (numHead_facts hh).1⟩
  | identifier name rest h hi =>
    obtain ⟨c, r, rfl⟩ := List.exists_cons_of_ne_nil h
    refine ⟨c, r, rfl, ?_⟩
    have hc := hi c (by simp)
    rintro (rfl | rfl | rfl) <;> revert hc <;> decide
  | symbol c rest h1 h2 => exact ⟨c, [], rfl, h2⟩
  | stringClosed => exact ⟨_, _, rfl, by decide⟩
  | stringOpen => exact ⟨_, _, rfl, by decide⟩
  | _ => exact ⟨_, _, rfl, by decide⟩

theorem Stuck.head_not_ws {code : Str} (h : Stuck code) : ∃ c r, code = c :: r ∧ ¬ IsWs c := by
  cases h with
  | nonAscii c r h =>
    refine ⟨c, r, rfl, ?_⟩
    rintro (rfl | rfl | rfl) <;> exact h (by decide)
  | string => exact ⟨_, _, rfl, by decide⟩

theorem Unclosed.head_not_ws {code : Str} (h : Unclosed code) : ∃ c r, code = c :: r ∧ ¬ IsWs c := by
  obtain ⟨⟨r, rfl⟩, _⟩ := h
  exact ⟨_, _, rfl, by decide⟩

/-- Every non-empty source falls into one of four cases. -/
theorem step_cases (code : Str) (hne : code ≠ []) (p : Position) :
    (∃ ws rest, code = ws ++ rest ∧ ws ≠ [] ∧ WsOnly ws ∧ (∀ c r, rest = c :: r → ¬ IsWs c) ∧
      lexStep code p = .ok (.skip rest (ws.foldl Position.afterWs p))) ∨
    (∃ lex rest ty, code = lex ++ rest ∧ Lexeme lex rest ty ∧ lexStep code p =
      .ok (.tok { tokenType := ty, range := { start := p, stop := p.afterLexeme lex } } rest
        (p.afterLexeme lex))) ∨
    (Unclosed code ∧ lexStep code p =
      .ok (.fail (.unclosedMultilineComment { start := p, stop := p.afterLexeme code }))) ∨
    (Stuck code ∧ lexStep code p = .panic .strSlice) := by
  obtain ⟨c, r, rfl⟩ := List.exists_cons_of_ne_nil hne
  by_cases hws : IsWs c
  · obtain ⟨ws, rest, he, h1, h2⟩ := exists_ws (c :: r)
    have hne : ws ≠ [] := by
      rintro rfl
      exact h2 c r (by simpa using he.symm) hws
    exact .inl ⟨ws, rest, he, hne, h1, h2, by rw [he]; exact lexStep_ws hne h1 h2⟩
  · rcases lexeme_or_error c r hws with ⟨lex, rest, ty, he, hl⟩ | h | h
    · exact .inr (.inl ⟨lex, rest, ty, he, hl, by rw [he]; exact lexStep_lexeme hl p⟩)
    · exact .inr (.inr (.inl ⟨h, lexStep_unclosed h p⟩))
    · exact .inr (.inr (.inr ⟨h, lexStep_stuck h p⟩))

/-- Prepend tokens to a tokenizer result. -/
def prepend (ts : List Token) : Out (Except TokenError (List Token)) → Out (Except TokenError (List Token))
  | .ok (.ok us) => .ok (.ok (ts ++ us))
  | r => r

@[simp] theorem prepend_nil (r) : prepend [] r = r := by
  unfold prepend; split <;> simp

theorem prepend_append (a b : List Token) (r) : prepend (a ++ b) r = prepend a (prepend b r) := by
  rcases r with (_ | _) | _ | _ <;> simp [prepend]

theorem utf8Len_pos {s : Str} (h : s ≠ []) : utf8Len s > 0 :=
  Nat.pos_of_ne_zero (fun h0 => h (utf8Len_eq_zero.1 h0))

theorem loop_nil (n : Nat) (p : Position) : tokenizeLoop (n + 1) [] p = .ok (.ok []) := by
  simp [tokenizeLoop]

theorem loop_fuel (code : Str) : ∀ (n m : Nat) (p : Position), code.length < n → code.length < m →
    tokenizeLoop n code p = tokenizeLoop m code p := by
  induction hl : code.length using Nat.strongRecOn generalizing code with
  | _ k ih =>
    intro n m p hn hm
    obtain ⟨n, rfl⟩ : ∃ n', n = n' + 1 := ⟨n - 1, by omega⟩
    obtain ⟨m, rfl⟩ : ∃ m', m = m' + 1 := ⟨m - 1, by omega⟩
    by_cases hne : code = []
    · subst hne; rw [loop_nil, loop_nil]
    · have hpos := utf8Len_pos hne
      simp only [tokenizeLoop, if_pos hpos]
      rcases step_cases code hne p with ⟨ws, rest, he, hw, _, _, hs⟩ | ⟨lex, rest, ty, he, hlex, hs⟩ |
          ⟨_, hs⟩ | ⟨_, hs⟩
      · rw [hs]
        have := List.length_pos_iff.2 hw
        have hlen : code.length = ws.length + rest.length := by rw [he]; simp
        exact ih rest.length (by omega) rest rfl n m _ (by omega) (by omega)
      · rw [hs]
        have := List.length_pos_iff.2 hlex.ne_nil
        have hlen : code.length = lex.length + rest.length := by rw [he]; simp
        simp only [ih rest.length (by omega) rest rfl n m _ (by omega) (by omega)]
      · rw [hs]
      · rw [hs]

/-- The loop with enough fuel. -/
def run (code : Str) (p : Position) : Out (Except TokenError (List Token)) :=
  tokenizeLoop (code.length + 1) code p

theorem tokenize_eq_run (code : Str) : tokenize code = run code .first := rfl

theorem loop_eq_run {n : Nat} {code : Str} (h : code.length < n) (p : Position) :
    tokenizeLoop n code p = run code p := loop_fuel code _ _ p h (Nat.lt_succ_self _)

theorem run_nil (p : Position) : run [] p = .ok (.ok []) := loop_nil 0 p

theorem run_lexeme {lex rest : Str} {ty : TokenType} (h : Lexeme lex rest ty) (p : Position) :
    run (lex ++ rest) p = prepend
      [{ tokenType := ty, range := { start := p, stop := p.afterLexeme lex } }]
      (run rest (p.afterLexeme lex)) := by
  have hne : lex ++ rest ≠ [] := by simp [h.ne_nil]
  have hlen := List.length_pos_iff.2 h.ne_nil
  rw [run, tokenizeLoop, if_pos (utf8Len_pos hne), lexStep_lexeme h p]
  dsimp only
  rw [loop_eq_run (by simp; omega)]
  rcases run rest (p.afterLexeme lex) with (_ | _) | _ | _ <;> rfl

theorem run_unclosed {code : Str} (h : Unclosed code) (p : Position) :
    run code p = .ok (.error (.unclosedMultilineComment { start := p, stop := p.afterLexeme code })) := by
  obtain ⟨c, r, rfl, _⟩ := h.head_not_ws
  unfold run
  rw [tokenizeLoop, if_pos (utf8Len_pos (by simp)), lexStep_unclosed h p]

theorem run_stuck {code : Str} (h : Stuck code) (p : Position) : run code p = .panic .strSlice := by
  obtain ⟨c, r, rfl, _⟩ := h.head_not_ws
  unfold run
  rw [tokenizeLoop, if_pos (utf8Len_pos (by simp)), lexStep_stuck h p]

theorem run_ws_block {ws rest : Str} (h : WsOnly ws) (hr : ∀ c r, rest = c :: r → ¬ IsWs c)
    (p : Position) : run (ws ++ rest) p = run rest (ws.foldl Position.afterWs p) := by
  by_cases hne : ws = []
  · subst hne; rfl
  · have hlen := List.length_pos_iff.2 hne
    rw [run, tokenizeLoop, if_pos (utf8Len_pos (by simp [hne])), lexStep_ws hne h hr]
    exact loop_eq_run (by simp; omega) _

theorem run_ws {c : Char} (h : IsWs c) (r : Str) (p : Position) :
    run (c :: r) p = run r (p.afterWs c) := by
  obtain ⟨ws, rest, he, h1, h2⟩ := exists_ws r
  subst he
  rw [run_ws_block h1 h2, ← List.cons_append, run_ws_block _ h2, List.foldl_cons]
  intro d hd
  rcases List.mem_cons.1 hd with rfl | hd
  · exact h
  · exact h1 d hd

theorem run_scan {code rest : Str} {p q : Position} {ts : List Token} (h : Scan code p ts rest q) :
    run code p = prepend ts (run rest q) := by
  induction h with
  | refl => simp
  | ws c code p ts code' p' hc _ ih => rw [run_ws hc, ih]
  | tok lex rest ty p ts code' p' hl _ ih => rw [run_lexeme hl, ih, ← prepend_append]; rfl

theorem Scan.trans {c1 c2 c3 : Str} {p1 p2 p3 : Position} {t1 t2 : List Token}
    (h1 : Scan c1 p1 t1 c2 p2) (h2 : Scan c2 p2 t2 c3 p3) : Scan c1 p1 (t1 ++ t2) c3 p3 := by
  induction h1 with
  | refl => exact h2
  | ws c code p ts code' p' hc _ ih => exact .ws c _ _ _ _ _ hc (ih h2)
  | tok lex rest ty p ts code' p' hl _ ih => exact .tok lex rest ty p _ _ _ hl (ih h2)

/-- The end of every run: end of source, unclosed comment or a bad slice. -/
theorem run_cases (code : Str) (p : Position) :
    (∃ ts q, Scan code p ts [] q ∧ run code p = .ok (.ok ts)) ∨
    (∃ ts rest q, Scan code p ts rest q ∧ Unclosed rest ∧ run code p =
      .ok (.error (.unclosedMultilineComment { start := q, stop := q.afterLexeme rest }))) ∨
    (∃ ts rest q, Scan code p ts rest q ∧ Stuck rest ∧ run code p = .panic .strSlice) := by
  induction hl : code.length using Nat.strongRecOn generalizing code p with
  | _ k ih =>
    cases code with
    | nil => exact .inl ⟨[], p, .refl _ _, run_nil p⟩
    | cons c r =>
      by_cases hws : IsWs c
      · rw [run_ws hws]
        rcases ih r.length (by simp at hl; omega) r (p.afterWs c) rfl with
          ⟨ts, q, h1, h2⟩ | ⟨ts, rest, q, h1, h2⟩ | ⟨ts, rest, q, h1, h2⟩
        · exact .inl ⟨ts, q, .ws _ _ _ _ _ _ hws h1, h2⟩
        · exact .inr (.inl ⟨ts, rest, q, .ws _ _ _ _ _ _ hws h1, h2⟩)
        · exact .inr (.inr ⟨ts, rest, q, .ws _ _ _ _ _ _ hws h1, h2⟩)
      · rcases lexeme_or_error c r hws with ⟨lex, rest, ty, he, hlex⟩ | h | h
        · rw [he, run_lexeme hlex]
          have := List.length_pos_iff.2 hlex.ne_nil
          have hlen : (c :: r).length = lex.length + rest.length := by rw [he]; simp
          rcases ih rest.length (by omega) rest (p.afterLexeme lex) rfl with
            ⟨ts, q, h1, h2⟩ | ⟨ts, rest, q, h1, h2, h3⟩ | ⟨ts, rest, q, h1, h2, h3⟩
          · exact .inl ⟨_, q, .tok _ _ _ _ _ _ _ hlex h1, by rw [h2]; rfl⟩
          · exact .inr (.inl ⟨_, rest, q, .tok _ _ _ _ _ _ _ hlex h1, h2, by rw [h3]; rfl⟩)
          · exact .inr (.inr ⟨_, rest, q, .tok _ _ _ _ _ _ _ hlex h1, h2, by rw [h3]; rfl⟩)
        · exact .inr (.inl ⟨[], _, p, .refl _ _, h, run_unclosed h p⟩)
        · exact .inr (.inr ⟨[], _, p, .refl _ _, h, run_stuck h p⟩)

/-- A successful run is a scan to the end of the source. -/
theorem run_ok_iff {code : Str} {p : Position} {ts : List Token} :
    run code p = .ok (.ok ts) ↔ ∃ q, Scan code p ts [] q := by
  constructor
  · intro h
    rcases run_cases code p with ⟨us, q, h1, h2⟩ | ⟨us, rest, q, _, _, h2⟩ | ⟨us, rest, q, _, _, h2⟩
    · rw [h] at h2
      simp at h2
      exact ⟨q, h2 ▸ h1⟩
    · rw [h] at h2; simp at h2
    · rw [h] at h2; simp at h2
  · rintro ⟨q, h⟩
    rw [run_scan h, run_nil]
    simp [prepend]

theorem run_error_iff {code : Str} {p : Position} {e : TokenError} :
    run code p = .ok (.error e) ↔ ∃ ts rest q, Scan code p ts rest q ∧ Unclosed rest ∧
      e = .unclosedMultilineComment { start := q, stop := q.afterLexeme rest } := by
  constructor
  · intro h
    rcases run_cases code p with ⟨us, q, h1, h2⟩ | ⟨us, rest, q, h0, h1, h2⟩ | ⟨us, rest, q, _, _, h2⟩
    · rw [h] at h2; simp at h2
    · rw [h] at h2; simp at h2
      exact ⟨us, rest, q, h0, h1, h2⟩
    · rw [h] at h2; simp at h2
  · rintro ⟨ts, rest, q, h1, h2, rfl⟩
    rw [run_scan h1, run_unclosed h2]
    rfl

theorem run_panic_iff {code : Str} {p : Position} {s : PanicSite} :
    run code p = .panic s ↔ s = .strSlice ∧ ∃ ts rest q, Scan code p ts rest q ∧ Stuck rest := by
  constructor
  · intro h
    rcases run_cases code p with ⟨us, q, h1, h2⟩ | ⟨us, rest, q, h0, h1, h2⟩ | ⟨us, rest, q, h0, h1, h2⟩
    · rw [h] at h2; simp at h2
    · rw [h] at h2; simp at h2
    · rw [h] at h2; simp at h2
      exact ⟨h2, us, rest, q, h0, h1⟩
  · rintro ⟨rfl, ts, rest, q, h1, h2⟩
    rw [run_scan h1, run_stuck h2]
    rfl

theorem run_not_outOfFuel (code : Str) (p : Position) : run code p ≠ .outOfFuel := by
  intro h
  rcases run_cases code p with ⟨us, q, h1, h2⟩ | ⟨us, rest, q, h0, h1, h2⟩ | ⟨us, rest, q, h0, h1, h2⟩ <;>
    rw [h] at h2 <;> simp at h2

/-! ## Determinism -/

/-- At most one lexeme starts a given text. -/
theorem Lexeme.unique {lex lex' rest rest' : Str} {ty ty' : TokenType} (h : Lexeme lex rest ty)
    (h' : Lexeme lex' rest' ty') (he : lex ++ rest = lex' ++ rest') :
    lex = lex' ∧ rest = rest' ∧ ty = ty' := by
  have h1 := lexStep_lexeme h Position.first
  have h2 := lexStep_lexeme h' Position.first
  rw [he, h2] at h1
  simp only [Out.ok.injEq, Step.tok.injEq, Token.mk.injEq] at h1
  obtain ⟨⟨h3, _⟩, h4, _⟩ := h1
  subst h4
  exact ⟨List.append_cancel_right he, rfl, h3.symm⟩

end Lol
