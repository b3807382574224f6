import Verif.Parser.Split

/-! # The statement iterator delivers the statements of the split -/

namespace Lol

theorem lineOfNext_eq (r : List Token) (line : Int) : StatementIterator.lineOfNext r line = firstLine r line := by
  cases r <;> rfl

theorem Token.line_eq (t : Token) : t.line = t.range.start.line := rfl

theorem new_line (tokens : List Token) : (StatementIterator.new tokens).line = firstLine tokens 0 := by
  cases tokens <;> rfl


open StatementIterator

/-- What an iterator has still to deliver. -/
def StatementIterator.abs (s : StatementIterator) : Stmts :=
  match s.peeked with
  | none => splitFrom s.rest s.line
  | some none => { cur := [], later := (splitFrom s.rest s.line).later }
  | some (some t) => (splitFrom s.rest s.line).push t

/-- A peeked `None` is what `next` would return. -/
def StatementIterator.Good (s : StatementIterator) : Prop :=
  s.peeked = some none → (splitFrom s.rest s.line).cur = []

theorem splitGap_skipCommas (r : List Token) : splitGap r = match skipCommas r with
    | [] => []
    | t :: r' => (splitFrom (t :: r') t.range.start.line).all := by
  induction r with
  | nil => simp [splitGap, skipCommas]
  | cons t r ih =>
    by_cases hc : t.tokenType = .comma
    · rw [splitGap, skipCommas, if_pos hc, if_pos hc, ih]
    · rw [splitGap, skipCommas, if_neg hc, if_neg hc]
      simp only [splitFrom, if_neg hc, if_true]
      split <;> rfl

theorem splitFrom_otherLine {t : Token} {r : List Token} {line : Int} (hc : t.tokenType ≠ .comma)
    (hl : t.range.start.line ≠ line) : splitFrom (t :: r) line = { cur := [], later := (splitFrom (t :: r) t.range.start.line).all } := by
  simp only [splitFrom, if_neg hc, if_neg hl, if_true]
  split <;> rfl

/-- The iterator has nothing to deliver in this statement without moving on. -/
def Blocked (r : List Token) (line : Int) : Prop :=
  r = [] ∨ ∃ t r', r = t :: r' ∧ (t.tokenType = .comma ∨ t.range.start.line ≠ line)

theorem nextRaw_spec (r : List Token) (line : Int) :
    (∃ t r' line', nextRaw r line = (some t, r', line') ∧ r'.length < r.length ∧
      splitFrom r line = (splitFrom r' line').push t) ∨
    (∃ r' line', nextRaw r line = (none, r', line') ∧ r'.length ≤ r.length ∧ Blocked r' line' ∧
      splitFrom r line = splitFrom r' line' ∧ (splitFrom r line).cur = []) := by
  induction r generalizing line with
  | nil => exact .inr ⟨[], line, by simp [nextRaw], by simp, .inl rfl, rfl, by simp [splitFrom]⟩
  | cons t r ih =>
    by_cases hc : t.tokenType = .comma
    · refine .inr ⟨t :: r, line, by simp [nextRaw, lineOfNext_eq, Token.line_eq, hc], by simp, .inr ⟨t, r, rfl, .inl hc⟩, rfl, ?_⟩
      simp [splitFrom, hc]
    · by_cases hl : t.range.start.line = line
      · by_cases he : t.tokenType = .ellipsis
        · have h1 : nextRaw (t :: r) line = nextRaw r (firstLine r line) := by
            simp [nextRaw, lineOfNext_eq, Token.line_eq, he, hl]
          have h2 : splitFrom (t :: r) line = splitFrom r (firstLine r line) := by
            simp [splitFrom, he, hl]
          rw [h1, h2]
          rcases ih (firstLine r line) with ⟨u, r', l', g1, g2, g3⟩ | ⟨r', l', g1, g2, g3, g4, g5⟩
          · exact .inl ⟨u, r', l', g1, by simp; omega, g3⟩
          · exact .inr ⟨r', l', g1, by simp; omega, g3, g4, g5⟩
        · exact .inl ⟨t, r, line, by simp [nextRaw, lineOfNext_eq, Token.line_eq, hc, he, hl], by simp, by simp [splitFrom, hc, he, hl]⟩
      · refine .inr ⟨t :: r, line, ?_, by simp, .inr ⟨t, r, rfl, .inr hl⟩, rfl, ?_⟩
        · simp [nextRaw, lineOfNext_eq, Token.line_eq, hc, hl]
        · simp [splitFrom, hc, hl]

theorem next_abs (s : StatementIterator) (h : s.Good) :
    Stmts.ops.next s.abs = (s.next.1, s.next.2.abs) ∧ s.next.2.Good := by
  obtain ⟨r, line, p⟩ := s
  cases p with
  | some o =>
    cases o with
    | none =>
      have h' : (splitFrom r line).cur = [] := h rfl
      refine ⟨?_, by intro h; cases h⟩
      simp only [StatementIterator.next, abs, Stmts.ops]
      rw [← h']
    | some t => exact ⟨rfl, by intro h; cases h⟩
  | none =>
    refine ⟨?_, ?_⟩
    · rcases nextRaw_spec r line with ⟨u, r', l', g1, g2, g3⟩ | ⟨r', l', g1, g2, g3, g4, g5⟩
      · simp only [StatementIterator.next, abs, Stmts.ops, g1, g3, Stmts.push]
      · simp only [StatementIterator.next, abs, Stmts.ops, g1, g5]
        rw [g4]
    · simp only [StatementIterator.next]
      intro h; cases h

theorem peek_abs (s : StatementIterator) (h : s.Good) :
    Stmts.ops.peek s.abs = (s.peek.1, s.peek.2.abs) ∧ s.peek.2.Good := by
  obtain ⟨r, line, p⟩ := s
  cases p with
  | some o =>
    cases o with
    | none => exact ⟨rfl, h⟩
    | some t => exact ⟨rfl, by intro h; cases h⟩
  | none =>
    rcases nextRaw_spec r line with ⟨u, r', l', g1, g2, g3⟩ | ⟨r', l', g1, g2, g3, g4, g5⟩
    · refine ⟨?_, ?_⟩
      · simp [StatementIterator.peek, StatementIterator.next, abs, Stmts.ops, g1, g3, Stmts.push]
      · simp only [StatementIterator.peek, StatementIterator.next, g1, Good]
        intro h; cases h
    · refine ⟨?_, ?_⟩
      · simp only [StatementIterator.peek, StatementIterator.next, abs, Stmts.ops, g1, g5, List.head?_nil,
          Prod.mk.injEq, true_and]
        rw [← g4, ← g5]
      · simp only [StatementIterator.peek, StatementIterator.next, g1, Good]
        intro _
        rw [← g4, g5]

theorem blocked_later {r : List Token} {line line' : Int} (h : Blocked r line) :
    splitFrom (skipCommas r) (firstLine (skipCommas r) line') = (splitFrom r line).advance := by
  rcases h with rfl | ⟨t, r', rfl, h⟩
  · rfl
  · by_cases hc : t.tokenType = .comma
    · simp only [skipCommas, splitFrom, if_pos hc, Stmts.advance]
      rw [splitGap_skipCommas]
      cases skipCommas r' with
      | nil => rfl
      | cons u v => rfl
    · have hl := h.resolve_left hc
      rw [splitFrom_otherLine hc hl]
      simp only [skipCommas, if_neg hc, lineOfNext_eq, firstLine, Stmts.advance, Stmts.all]

theorem collectLoop_abs (s : StatementIterator) (h : s.Good) (fuel : Nat)
    (hf : s.rest.length + (if s.peeked = none then 0 else 1) < fuel) :
    (collectLoop fuel s).1 = s.abs.cur ∧ (collectLoop fuel s).2.abs = { s.abs with cur := [] } ∧
      ((collectLoop fuel s).2.peeked = none) ∧
      (s.peeked ≠ some none → Blocked (collectLoop fuel s).2.rest (collectLoop fuel s).2.line) ∧
      (s.peeked = some none → (collectLoop fuel s).2 = { s with peeked := none }) := by
  induction fuel generalizing s with
  | zero => omega
  | succ fuel ih =>
    obtain ⟨r, line, p⟩ := s
    cases p with
    | some o =>
      cases o with
      | none =>
        have h' : (splitFrom r line).cur = [] := h rfl
        refine ⟨rfl, ?_, rfl, fun h => absurd rfl h, fun _ => rfl⟩
        simp only [collectLoop, StatementIterator.next, abs]
        rw [← h']
      | some t =>
        simp at hf
        have := ih { rest := r, line := line, peeked := none } (by intro h; cases h) (by simp; omega)
        simp only [collectLoop, StatementIterator.next]
        refine ⟨?_, ?_, this.2.2.1, fun _ => this.2.2.2.1 (by simp), fun h => by cases h⟩
        · rw [this.1]; rfl
        · rw [this.2.1]; rfl
    | none =>
      simp at hf
      simp only [collectLoop, StatementIterator.next]
      rcases nextRaw_spec r line with ⟨u, r', l', g1, g2, g3⟩ | ⟨r', l', g1, g2, g3, g4, g5⟩
      · have := ih { rest := r', line := l', peeked := none } (by intro h; cases h) (by simp; omega)
        simp only [g1]
        refine ⟨?_, ?_, this.2.2.1, fun _ => this.2.2.2.1 (by simp), fun h => by cases h⟩
        · rw [this.1]; simp [abs, g3, Stmts.push]
        · rw [this.2.1]; simp [abs, g3, Stmts.push]
      · simp only [g1]
        refine ⟨?_, ?_, trivial, fun _ => g3, fun h => by cases h⟩
        · simp [abs, g5]
        · simp only [abs]
          rw [← g4, ← g5]

/-- `splitFrom` with an empty current statement: what comes next. -/
theorem splitFrom_nil_cur {r : List Token} {line : Int} (h : (splitFrom r line).cur = []) :
    ∃ r' line', Blocked r' line' ∧ splitFrom r line = splitFrom r' line' := by
  rcases nextRaw_spec r line with ⟨u, r', l', g1, g2, g3⟩ | ⟨r', l', g1, g2, g3, g4, g5⟩
  · rw [g3] at h; simp [Stmts.push] at h
  · exact ⟨r', l', g3, g4⟩

/-- A peeked `None` was left by `peek` on a blocked iterator. -/
def StatementIterator.Sound (s : StatementIterator) : Prop :=
  s.peeked = some none → Blocked s.rest s.line

theorem blocked_cur {r : List Token} {line : Int} (h : Blocked r line) : (splitFrom r line).cur = [] := by
  rcases h with rfl | ⟨t, r', rfl, h⟩
  · simp [splitFrom]
  · by_cases hc : t.tokenType = .comma
    · simp [splitFrom, hc]
    · simp [splitFrom, hc, h.resolve_left hc]

theorem StatementIterator.Sound.good {s : StatementIterator} (h : s.Sound) : s.Good :=
  fun hp => blocked_cur (h hp)

theorem next_sound (s : StatementIterator) : s.next.2.Sound := by
  obtain ⟨r, line, p⟩ := s
  cases p with
  | none =>
    simp only [StatementIterator.next]
    intro h; cases h
  | some o => intro h; cases h

theorem peek_sound (s : StatementIterator) (h : s.Sound) : s.peek.2.Sound := by
  obtain ⟨r, line, p⟩ := s
  cases p with
  | some o => exact h
  | none =>
    rcases nextRaw_spec r line with ⟨u, r', l', g1, g2, g3⟩ | ⟨r', l', g1, g2, g3, g4, g5⟩
    · simp only [StatementIterator.peek, StatementIterator.next, g1, Sound]
      intro h; cases h
    · simp only [StatementIterator.peek, StatementIterator.next, g1, Sound]
      intro _; exact g3

theorem nextStatement_abs (s : StatementIterator) (h : s.Sound) :
    Stmts.ops.nextStatement s.abs = (s.nextStatement.1, s.nextStatement.2.abs) ∧ s.nextStatement.2.Sound := by
  obtain ⟨h1, h2, h3, h4, h5⟩ := collectLoop_abs s h.good (s.rest.length + 2) (by split <;> omega)
  refine ⟨?_, by intro h; cases h⟩
  simp only [StatementIterator.nextStatement, Stmts.ops, collect, h1, Prod.mk.injEq, true_and]
  have hb : Blocked (collectLoop (s.rest.length + 2) s).2.rest (collectLoop (s.rest.length + 2) s).2.line := by
    by_cases hp : s.peeked = some none
    · rw [h5 hp]; exact h hp
    · exact h4 hp
  have h6 : s.abs.advance = (collectLoop (s.rest.length + 2) s).2.abs.advance := by rw [h2]; rfl
  have h7 : ∀ c : StatementIterator, c.peeked = none → c.abs = splitFrom c.rest c.line := by
    intro c hc; simp only [abs, hc]
  rw [h6, h7 _ h3, h7 _ rfl, lineOfNext_eq, blocked_later hb]

/-- Change of iterator states in an outcome. -/
def Res.map {σ τ α : Type} (f : σ → τ) : Res σ α → Res τ α
  | .ok a s => .ok a (f s)
  | .err e s => .err e (f s)
  | .panic p => .panic p
  | .outOfFuel => .outOfFuel

/-- Every program does the same on an iterator and on the statements it has to deliver. -/
theorem run_abs {α : Type} (p : Prog α) (s : StatementIterator) (h : s.Sound) :
    p.run Stmts.ops s.abs = (p.run StatementIterator.ops s).map StatementIterator.abs := by
  induction p generalizing s with
  | ret | err | panic | outOfFuel => rfl
  | next k ih =>
    simp only [Prog.run, (next_abs s h.good).1]
    exact ih _ _ (next_sound s)
  | peek k ih =>
    simp only [Prog.run, (peek_abs s h.good).1]
    exact ih _ _ (peek_sound s h)
  | nextStatement k ih =>
    simp only [Prog.run, (nextStatement_abs s h).1]
    exact ih _ _ (nextStatement_abs s h).2

theorem new_sound (tokens : List Token) : (StatementIterator.new tokens).Sound := by
  intro h; cases h

theorem new_abs (tokens : List Token) : (StatementIterator.new tokens).abs = split tokens := by
  show splitFrom tokens (StatementIterator.new tokens).line = _
  rw [new_line]; rfl

end Lol
