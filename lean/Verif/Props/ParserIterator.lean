import Verif.Parser.SplitLemmas
import Verif.Lexer.Model

/-!
# Properties of the statement iterator (C24, C25)
-/

namespace Lol

open StatementIterator

/-! ## C24: division into statements -/

/-- **C24** The iterator over `tokens` delivers the statements of `split tokens`, one for each call of
`next_statement`, and then empty ones. -/
theorem C24_statements (tokens : List Token) (k : Nat) :
    (StatementIterator.new tokens).statement k = stmt tokens k := by
  rw [statement_abs _ (new_sound tokens), new_abs]; rfl

/-- **C24** The statements together are the tokens other than commas and ellipses, each once and in order. -/
theorem C24_lossless (tokens : List Token) :
    (split tokens).all.flatten = tokens.filter fun t => !t.isSeparator :=
  (split_flatten_aux tokens).1 _

/-- **C24** No statement contains a comma or an ellipsis. -/
theorem C24_no_separators (tokens : List Token) (k : Nat) :
    ∀ t ∈ stmt tokens k, t.tokenType ≠ .comma ∧ t.tokenType ≠ .ellipsis := by
  intro t ht
  unfold stmt at ht
  have hmem : t ∈ (split tokens).all.flatten := by
    rw [List.getD_eq_getElem?_getD] at ht
    cases hk : (split tokens).all[k]? with
    | none => rw [hk] at ht; simp at ht
    | some st =>
      rw [hk] at ht
      exact List.mem_flatten.2 ⟨st, List.mem_of_getElem? hk, ht⟩
  rw [C24_lossless] at hmem
  have := (List.mem_filter.1 hmem).2
  simpa [Token.isSeparator] using this

/-- **C24** Two tokens with nothing but commas and ellipses between them are in one statement if there is no comma
between them and they are on the same line, or an ellipsis at the end of the line of the first one joins
them. `A` are the statements before, `a` the part of the statement before `x`. -/
theorem C24_joined {pre gap post : List Token} {x y : Token} (hx : x.isSeparator = false)
    (hy : y.isSeparator = false) (hg : ∀ t ∈ gap, t.isSeparator = true) (h : Joined x gap y) :
    ∃ A a b B, (split (pre ++ x :: (gap ++ y :: post))).all = A ++ (a ++ x :: y :: b) :: B ∧
      A.flatten ++ a = content pre := by
  obtain ⟨A, a, h1, h2⟩ := (split_at_aux pre x (gap ++ y :: post) hx).1
    (firstLine (pre ++ x :: (gap ++ y :: post)) 0)
  have h3 := ((split_gap_aux gap y post hg hy).1 x.range.start.line).1 h
  rw [h3] at h1
  exact ⟨A, a, _, _, h1, h2⟩

example : ∃ x e y z, tokenize chars!"x ...\ny z" = .ok (.ok [x, e, y, z]) ∧ x.isSeparator = false ∧
    y.isSeparator = false ∧ (∀ t ∈ [e], t.isSeparator = true) ∧ Joined x [e] y :=
  ⟨_, _, _, _, rfl, rfl, rfl, by decide +kernel, by decide +kernel, by decide +kernel⟩

/-- **C24** Otherwise the first one ends its statement and the second one starts a later statement, with nothing but
empty statements between. -/
theorem C24_separated {pre gap post : List Token} {x y : Token} (hx : x.isSeparator = false)
    (hy : y.isSeparator = false) (hg : ∀ t ∈ gap, t.isSeparator = true) (h : ¬ Joined x gap y) :
    ∃ A a E b B, (split (pre ++ x :: (gap ++ y :: post))).all = A ++ (a ++ [x]) :: (E ++ (y :: b) :: B) ∧
      A.flatten ++ a = content pre ∧ ∀ e ∈ E, e = [] := by
  obtain ⟨A, a, h1, h2⟩ := (split_at_aux pre x (gap ++ y :: post) hx).1
    (firstLine (pre ++ x :: (gap ++ y :: post)) 0)
  obtain ⟨E, hE, h3⟩ := ((split_gap_aux gap y post hg hy).1 x.range.start.line).2 h
  rw [h3] at h1
  exact ⟨A, a, E, _, _, h1, h2, hE⟩

example : ∃ x e c y, tokenize chars!"x ...,\ny" = .ok (.ok [x, e, c, y]) ∧ x.isSeparator = false ∧
    y.isSeparator = false ∧ (∀ t ∈ [e, c], t.isSeparator = true) ∧ ¬ Joined x [e, c] y := by
  refine ⟨_, _, _, _, rfl, rfl, rfl, by decide +kernel, ?_⟩
  rintro ⟨h, -⟩
  revert h
  decide +kernel

/-- **C24** Without ellipses no statement is empty, except that a leading comma makes the first one empty. -/
theorem C24_no_empty {tokens : List Token} (h : ∀ t ∈ tokens, t.tokenType ≠ .ellipsis) :
    [] ∉ (split tokens).later ∧
      ((split tokens).cur = [] ↔ tokens = [] ∨ ∃ t r, tokens = t :: r ∧ t.tokenType = .comma) := by
  refine ⟨(split_nonempty_aux tokens h).1 _, ?_⟩
  cases tokens with
  | nil => simp [split, splitFrom]
  | cons t r =>
    have he := h t List.mem_cons_self
    by_cases hc : t.tokenType = .comma
    · simp [split, splitFrom, hc]
    · simp [split, splitFrom, hc, he, firstLine, Stmts.push]

-- Two lines, the first one continued on the second, and a comma.
example : ∃ tokens, tokenize chars!"VISIBLE x ...\n y, GTFO" = .ok (.ok tokens) ∧
    (split tokens).all.map (List.map (·.tokenType)) =
      [[.keyword .VISIBLE, .identifier ['x'], .identifier ['y']], [.keyword .GTFO]] := by
  refine ⟨_, rfl, ?_⟩
  decide +kernel

-- `x`, an ellipsis on the same line, and `y` on the next line.
example : ∃ x e y, tokenize chars!"x ...\ny" = .ok (.ok [x, e, y]) ∧ Joined x [e] y ∧ ¬ Joined x [] y := by
  refine ⟨_, _, _, rfl, ⟨?_, ?_⟩, ?_⟩
  · decide +kernel
  · decide +kernel
  · rintro ⟨-, h⟩
    revert h
    decide +kernel

-- The leading comma.
example : ∃ tokens, tokenize chars!",GTFO" = .ok (.ok tokens) ∧ (split tokens).cur = [] ∧
    (split tokens).later.length = 1 := by
  refine ⟨_, rfl, ?_⟩
  decide +kernel

/-! ## C25: peeking -/

/-- **C25** `peek` returns what `next` returns, and `next` after it returns the same and leaves the same state. -/
theorem C25_peek_next (s : StatementIterator) : s.peek.1 = s.next.1 ∧ s.peek.2.next = s.next := by
  obtain ⟨r, line, p⟩ := s
  cases p <;> exact ⟨rfl, rfl⟩

/-- **C25** A second `peek` returns the same and changes nothing. -/
theorem C25_peek_peek (s : StatementIterator) : s.peek.2.peek = s.peek := by
  obtain ⟨r, line, p⟩ := s
  cases p <;> rfl

/-- **C25** No sequence of calls can tell whether there was a `peek` before it. -/
theorem C25_peek_invisible {α : Type} {tokens : List Token} {s : StatementIterator} (h : Reachable tokens s)
    (p : Prog α) : (p.run ops s.peek.2).out = (p.run ops s).out := by
  have h1 := peek_abs s h.sound.good
  simp only [Stmts.ops, Prod.mk.injEq] at h1
  exact out_of_abs_eq p (peek_sound s h.sound) h.sound h1.1.2.symm

example : ∃ tokens s, tokenize chars!"SUM OF x y\nz" = .ok (.ok tokens) ∧ Reachable tokens s ∧ s.peek.2 ≠ s ∧
    s.peek.1.map (·.tokenType) = some (.identifier ['x']) := by
  refine ⟨_, _, rfl, .next .new, ?_⟩
  decide +kernel

/-- **C25** `next_if` takes the next token exactly if the predicate holds for it; otherwise it returns nothing and
later calls behave as if it had not been called. -/
theorem C25_next_if {α : Type} {tokens : List Token} {s : StatementIterator} (h : Reachable tokens s)
    (f : Token → Bool) (p : Option Token → Prog α) :
    ((nextIf f >>= p).run ops s).out =
      match s.next.1 with
      | some t => if f t then ((p (some t)).run ops s.next.2).out else ((p none).run ops s).out
      | none => ((p none).run ops s).out := by
  obtain ⟨h1, h2⟩ := C25_peek_next s
  have h3 : (nextIf f >>= p).run ops s = match s.next.1 with
      | some t => if f t then (p (some t)).run ops s.next.2 else (p none).run ops s.peek.2
      | none => (p none).run ops s.peek.2 := by
    rw [← h1]
    show ((nextIf f).bind p).run ops s = _
    unfold nextIf
    show ((Prog.bind (Prog.peek .ret) _).bind p).run ops s = _
    simp only [Prog.bind, Prog.run]
    show ((Prog.bind (match s.peek.1 with
      | some token => if f token then Lol.next else pure none
      | none => pure none) p)).run ops s.peek.2 = _
    cases hp : s.peek.1 with
    | none => rfl
    | some t =>
      dsimp only
      split
      · show (p s.peek.2.next.1).run ops s.peek.2.next.2 = _
        rw [h2, ← h1, hp]
      · rfl
  rw [h3]
  cases s.next.1 with
  | none => exact C25_peek_invisible h _
  | some t =>
    dsimp only
    split
    · rfl
    · exact C25_peek_invisible h _

example : ∃ tokens s t, tokenize chars!"SUM OF x y\nz" = .ok (.ok tokens) ∧ Reachable tokens s ∧
    s.next.1 = some t ∧ t.tokenType = .identifier ['x'] :=
  ⟨_, _, _, rfl, .next .new, rfl, rfl⟩

/-- **C25** The same for `next_if_token_type_eq` and `next_if_token_type_ne`, which are `next_if`. -/
theorem C25_next_if_token_type (ty : TokenType) :
    nextIfTokenTypeEq ty = nextIf (fun t => decide (t.tokenType = ty)) ∧
    nextIfTokenTypeNe ty = nextIf (fun t => decide (t.tokenType ≠ ty)) := by
  constructor
  · simp only [nextIfTokenTypeEq, nextIf, decide_eq_true_eq]
  · simp only [nextIfTokenTypeNe, nextIf, decide_eq_true_eq]

-- An iterator in the middle of a statement, on which `peek` and `next_if` return a token.
example : ∃ tokens s, tokenize chars!"SUM OF x y\nz" = .ok (.ok tokens) ∧ Reachable tokens s ∧
    (s.peek.1.map (·.tokenType)) = some (.identifier ['x']) ∧ s.peek.2 ≠ s := by
  refine ⟨_, _, rfl, .next .new, ?_⟩
  decide +kernel

end Lol
