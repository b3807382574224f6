import Verif.Parser.IterSpec
import Verif.Parser.Simulation

/-! # The division into statements: lemmas -/

namespace Lol

open StatementIterator

theorem StatementIterator.Reachable.sound {tokens : List Token} {s : StatementIterator}
    (h : Reachable tokens s) : s.Sound := by
  induction h with
  | new => exact new_sound tokens
  | next _ ih => exact next_sound _
  | peek _ ih => exact peek_sound _ ih
  | nextStatement _ ih => exact (nextStatement_abs _ ih).2

theorem statement_abs (s : StatementIterator) (h : s.Sound) (k : Nat) :
    s.statement k = s.abs.all.getD k [] := by
  induction k generalizing s with
  | zero =>
    have := (nextStatement_abs s h).1
    simp only [Stmts.ops, Prod.mk.injEq] at this
    simp [statement, Stmts.all, this.1]
  | succ k ih =>
    obtain ⟨h1, h2⟩ := nextStatement_abs s h
    simp only [Stmts.ops, Prod.mk.injEq] at h1
    rw [statement, ih _ h2, ← h1.2]
    simp only [Stmts.all, Stmts.advance]
    cases s.abs.later with
    | nil => cases k <;> simp
    | cons c l => simp

/-- States that have the same to deliver cannot be told apart. -/
theorem out_of_abs_eq {α : Type} (p : Prog α) {s s' : StatementIterator} (h : s.Sound) (h' : s'.Sound)
    (heq : s.abs = s'.abs) : (p.run StatementIterator.ops s).out = (p.run StatementIterator.ops s').out := by
  have h1 := run_abs p s h
  have h2 := run_abs p s' h'
  rw [heq, h2] at h1
  revert h1
  cases p.run StatementIterator.ops s <;> cases p.run StatementIterator.ops s' <;>
    simp [Res.map, Res.out] <;> intros <;> simp_all

theorem content_cons (t : Token) (r : List Token) :
    content (t :: r) = if t.isSeparator then content r else t :: content r := by
  cases h : t.isSeparator <;> simp [content, h]

theorem isSeparator_comma {t : Token} (h : t.tokenType = .comma) : t.isSeparator = true := by
  simp [Token.isSeparator, h]

theorem isSeparator_ellipsis {t : Token} (h : t.tokenType = .ellipsis) : t.isSeparator = true := by
  simp [Token.isSeparator, h]

theorem isSeparator_false {t : Token} (h : t.tokenType ≠ .comma) (h' : t.tokenType ≠ .ellipsis) :
    t.isSeparator = false := by
  simp [Token.isSeparator, h, h']

/-- Commas and ellipses aside, all tokens are kept. -/
theorem split_flatten_aux (r : List Token) :
    (∀ line, (splitFrom r line).all.flatten = content r) ∧ (splitGap r).flatten = content r := by
  induction r with
  | nil => simp [splitFrom, splitGap, Stmts.all, content]
  | cons t r ih =>
    obtain ⟨ih1, ih2⟩ := ih
    have push : ∀ s : Stmts, (s.push t).all.flatten = t :: s.all.flatten := fun s => by
      simp [Stmts.push, Stmts.all]
    by_cases hc : t.tokenType = .comma
    · rw [content_cons, isSeparator_comma hc, if_pos rfl]
      refine ⟨fun line => ?_, ?_⟩
      · simp [splitFrom, hc, Stmts.all, ih2]
      · simp [splitGap, hc, ih2]
    · by_cases he : t.tokenType = .ellipsis
      · rw [content_cons, isSeparator_ellipsis he, if_pos rfl]
        refine ⟨fun line => ?_, ?_⟩
        · simp only [splitFrom, if_neg hc, if_pos he]
          split
          · exact ih1 _
          · rw [Stmts.all, List.flatten_cons, List.nil_append, ih1]
        · simp only [splitGap, if_neg hc, if_pos he, ih1]
      · rw [content_cons, isSeparator_false hc he, if_neg (by simp)]
        refine ⟨fun line => ?_, ?_⟩
        · simp only [splitFrom, if_neg hc, if_neg he]
          split
          · rw [push, ih1]
          · rw [Stmts.all, List.flatten_cons, List.nil_append, push, ih1]
        · simp only [splitGap, if_neg hc, if_neg he, push, ih1]

theorem split_tokens (tokens : List Token) : (split tokens).tokens = content tokens := by
  rw [← (split_flatten_aux tokens).1 (firstLine tokens 0)]
  rfl

/-- Where a token stands in the division. -/
theorem split_at_aux (pre : List Token) (x : Token) (rest : List Token) (hx : x.isSeparator = false) :
    (∀ line, ∃ A a, (splitFrom (pre ++ x :: rest) line).all =
        A ++ (a ++ x :: (splitFrom rest x.range.start.line).cur) :: (splitFrom rest x.range.start.line).later ∧
      A.flatten ++ a = content pre) ∧
    (∃ A a, splitGap (pre ++ x :: rest) =
        A ++ (a ++ x :: (splitFrom rest x.range.start.line).cur) :: (splitFrom rest x.range.start.line).later ∧
      A.flatten ++ a = content pre) := by
  induction pre with
  | nil =>
    simp only [Token.isSeparator, decide_eq_false_iff_not, not_or] at hx
    refine ⟨fun line => ?_, [], [], ?_, rfl⟩
    · by_cases hl : x.range.start.line = line
      · subst hl
        exact ⟨[], [], by simp [splitFrom, hx, Stmts.push, Stmts.all], rfl⟩
      · exact ⟨[[]], [], by simp [splitFrom, hx, Stmts.push, Stmts.all, hl], rfl⟩
    · simp [splitGap, hx, Stmts.push, Stmts.all]
  | cons t pre ih =>
    obtain ⟨ih1, A', a', ih2, ih2'⟩ := ih
    have push : ∀ (s : Stmts) A a c l, s.all = A ++ (a ++ c) :: l →
        ∃ A' a', (s.push t).all = A' ++ (a' ++ c) :: l ∧ A'.flatten ++ a' = t :: (A.flatten ++ a) := by
      intro s A a c l h
      cases A with
      | nil =>
        refine ⟨[], t :: a, ?_, rfl⟩
        simp only [Stmts.all, List.nil_append, List.cons.injEq] at h
        simp [Stmts.push, Stmts.all, h.1, h.2]
      | cons b A =>
        refine ⟨(t :: b) :: A, a, ?_, by simp⟩
        simp only [Stmts.all, List.cons_append, List.cons.injEq] at h
        simp [Stmts.push, Stmts.all, h.1, h.2]
    by_cases hc : t.tokenType = .comma
    · rw [content_cons, isSeparator_comma hc, if_pos rfl]
      refine ⟨fun line => ⟨[] :: A', a', ?_, by simpa using ih2'⟩, A', a', ?_, ih2'⟩
      · simp [splitFrom, hc, Stmts.all, ih2]
      · simp [splitGap, hc, ih2]
    · by_cases he : t.tokenType = .ellipsis
      · rw [content_cons, isSeparator_ellipsis he, if_pos rfl]
        refine ⟨fun line => ?_, ?_⟩
        · simp only [List.cons_append, splitFrom, if_neg hc, if_pos he]
          split
          · exact ih1 _
          · obtain ⟨A, a, h1, h2⟩ := ih1 (firstLine (pre ++ x :: rest) t.range.start.line)
            exact ⟨[] :: A, a, by rw [Stmts.all, h1]; rfl, by simpa using h2⟩
        · obtain ⟨A, a, h1, h2⟩ := ih1 (firstLine (pre ++ x :: rest) t.range.start.line)
          exact ⟨A, a, by simp only [List.cons_append, splitGap, if_neg hc, if_pos he, h1], h2⟩
      · rw [content_cons, isSeparator_false hc he, if_neg (by simp)]
        have := ih1 t.range.start.line
        obtain ⟨A, a, h1, h2⟩ := this
        obtain ⟨A2, a2, h3, h4⟩ := push _ _ _ _ _ h1
        rw [h2] at h4
        refine ⟨fun line => ?_, ?_⟩
        · simp only [List.cons_append, splitFrom, if_neg hc, if_neg he]
          split
          · rename_i hl
            rw [← hl]
            exact ⟨A2, a2, h3, h4⟩
          · exact ⟨[] :: A2, a2, by rw [Stmts.all, h3]; rfl, by simpa using h4⟩
        · exact ⟨A2, a2, by simp only [List.cons_append, splitGap, if_neg hc, if_neg he, h3], h4⟩

/-- What follows a token: separators and the next token. -/
theorem split_gap_aux (gap : List Token) (y : Token) (post : List Token) (hg : ∀ t ∈ gap, t.isSeparator = true)
    (hy : y.isSeparator = false) :
    (∀ line, ((∀ t ∈ gap, t.tokenType ≠ .comma) ∧ ((gap ++ [y]).head?.map (·.range.start.line) = some line) →
        splitFrom (gap ++ y :: post) line = (splitFrom post y.range.start.line).push y) ∧
      (¬ ((∀ t ∈ gap, t.tokenType ≠ .comma) ∧ ((gap ++ [y]).head?.map (·.range.start.line) = some line)) →
        ∃ E, (∀ e ∈ E, e = []) ∧
          splitFrom (gap ++ y :: post) line = ⟨[], E ++ ((splitFrom post y.range.start.line).push y).all⟩)) ∧
    ∃ E, (∀ e ∈ E, e = []) ∧ splitGap (gap ++ y :: post) = E ++ ((splitFrom post y.range.start.line).push y).all := by
  have hy' := hy
  simp only [Token.isSeparator, decide_eq_false_iff_not, not_or] at hy'
  induction gap with
  | nil =>
    refine ⟨fun line => ⟨?_, ?_⟩, [], by simp, ?_⟩
    · rintro ⟨-, h⟩
      have h : y.range.start.line = line := by simpa using h
      subst h
      simp [splitFrom, hy']
    · intro h
      have h : y.range.start.line ≠ line := by simpa using h
      exact ⟨[], by simp, by simp [splitFrom, hy', h]⟩
    · simp [splitGap, hy']
  | cons t gap ih =>
    obtain ⟨ih1, E, ihE, ih2⟩ := ih fun t h => hg t (List.mem_cons_of_mem _ h)
    by_cases hc : t.tokenType = .comma
    · refine ⟨fun line => ⟨?_, fun _ => ⟨E, ihE, ?_⟩⟩, E, ihE, ?_⟩
      · rintro ⟨h, -⟩
        exact absurd hc (h t List.mem_cons_self)
      · simp [splitFrom, hc, ih2]
      · simp [splitGap, hc, ih2]
    · have he : t.tokenType = .ellipsis := by
        have := hg t List.mem_cons_self
        simp only [Token.isSeparator, decide_eq_true_eq] at this
        exact this.resolve_left hc
      have hline : ∀ line, (gap ++ [y]).head?.map (·.range.start.line) = some (firstLine (gap ++ y :: post) line) := by
        intro line
        cases gap <;> simp [firstLine]
      have key : ∀ line, (∀ t ∈ gap, t.tokenType ≠ .comma) →
          splitFrom (gap ++ y :: post) (firstLine (gap ++ y :: post) line) = (splitFrom post y.range.start.line).push y :=
        fun line h => (ih1 _).1 ⟨h, hline line⟩
      have key' : ∀ line, ∃ E, (∀ e ∈ E, e = []) ∧
          (splitFrom (gap ++ y :: post) (firstLine (gap ++ y :: post) line)).all =
            E ++ ((splitFrom post y.range.start.line).push y).all := by
        intro line
        by_cases h : ∀ t ∈ gap, t.tokenType ≠ .comma
        · exact ⟨[], by simp, by rw [key line h]; rfl⟩
        · obtain ⟨E, h1, h2⟩ := (ih1 (firstLine (gap ++ y :: post) line)).2 fun h' => h h'.1
          exact ⟨[] :: E, by simpa using h1, by rw [h2]; rfl⟩
      refine ⟨fun line => ⟨?_, ?_⟩, ?_⟩
      · rintro ⟨h1, h2⟩
        have h2 : t.range.start.line = line := by simpa using h2
        simp only [List.cons_append, splitFrom, if_neg hc, if_pos he, h2, if_true]
        exact key _ fun u hu => h1 u (List.mem_cons_of_mem _ hu)
      · intro h
        simp only [List.cons_append, splitFrom, if_neg hc, if_pos he]
        split
        · rename_i hl
          refine (ih1 _).2 fun h' => h ⟨?_, by simpa using hl⟩
          intro u hu
          rcases List.mem_cons.1 hu with rfl | hu
          · exact hc
          · exact h'.1 u hu
        · obtain ⟨E, h1, h2⟩ := key' t.range.start.line
          exact ⟨E, h1, by rw [h2]⟩
      · simp only [List.cons_append, splitGap, if_neg hc, if_pos he]
        exact key' t.range.start.line

/-- No statement is empty when there is no ellipsis. -/
theorem split_nonempty_aux (r : List Token) (h : ∀ t ∈ r, t.tokenType ≠ .ellipsis) :
    (∀ line, [] ∉ (splitFrom r line).later) ∧ [] ∉ splitGap r := by
  induction r with
  | nil => simp [splitFrom, splitGap]
  | cons t r ih =>
    obtain ⟨ih1, ih2⟩ := ih fun t h' => h t (List.mem_cons_of_mem _ h')
    have he := h t List.mem_cons_self
    have push : ∀ line, [] ∉ ((splitFrom r line).push t).all := by
      intro line
      simp [Stmts.push, Stmts.all, ih1]
    by_cases hc : t.tokenType = .comma
    · exact ⟨fun line => by simp [splitFrom, hc, ih2], by simp [splitGap, hc, ih2]⟩
    · refine ⟨fun line => ?_, ?_⟩
      · simp only [splitFrom, if_neg hc, if_neg he]
        split
        · simpa [Stmts.push] using ih1 line
        · exact push _
      · simp only [splitGap, if_neg hc, if_neg he]
        exact push _

end Lol
