import Verif.Parser.ProgramComplete
import Verif.Parser.RunLemmas

/-! # `parse` on the statements of the token list -/

namespace Lol

/-- What a block parser gives, without the state. -/
def Res.block {σ : Type} : Res σ Block → Out Block
  | .ok block _ => .ok block
  | .err e _ => .ok [.astError e]
  | .panic p => .panic p
  | .outOfFuel => .outOfFuel

theorem parseWith_eq (n : Nat) (tokens : List Token) :
    parseWith n tokens = (exec (parseBlock n stopRoot) (split tokens)).block := by
  have := run_abs (parseBlock n stopRoot) _ (new_sound tokens)
  rw [new_abs] at this
  rw [exec, this]
  unfold parseWith
  cases (parseBlock n stopRoot).run StatementIterator.ops (StatementIterator.new tokens) <;> rfl

theorem split_length (r : List Token) :
    (∀ line, (splitFrom r line).later.length ≤ r.length) ∧ (splitGap r).length ≤ r.length := by
  induction r with
  | nil => simp [splitFrom, splitGap]
  | cons t r ih =>
    obtain ⟨ih1, ih2⟩ := ih
    constructor
    · intro line
      unfold splitFrom
      split
      · simp; omega
      · split
        · split
          · have := ih1 (firstLine r line)
            simp; omega
          · have := ih1 line
            simp [Stmts.push]; omega
        · split
          · have := ih1 (firstLine r t.range.start.line)
            simp [Stmts.all]; omega
          · have := ih1 t.range.start.line
            simp [Stmts.all, Stmts.push]; omega
    · unfold splitGap
      split
      · simp; omega
      · split
        · have := ih1 (firstLine r t.range.start.line)
          simp [Stmts.all]; omega
        · have := ih1 t.range.start.line
          simp [Stmts.all, Stmts.push]; omega

theorem split_size (tokens : List Token) : (split tokens).size ≤ 2 * tokens.length := by
  have h1 := (split_length tokens).1 (firstLine tokens 0)
  have h2 := split_tokens tokens
  have h3 : (content tokens).length ≤ tokens.length := List.length_filter_le _ _
  simp only [Stmts.size, h2]
  unfold split
  omega

theorem parseBlock_no_err (n : Nat) (stop : Token → Bool) (s : Stmts) (e : ASTError) (s' : Stmts) :
    exec (parseBlock n stop) s ≠ .err e s' := by
  induction n generalizing s with
  | zero =>
    rw [parseBlock]
    exact fun h => by cases h
  | succ n ih =>
    have htail : ∀ nodes s, exec (blockTail n stop nodes) s ≠ .err e s' := by
      intro nodes s
      have hl : ∃ errors s1, exec leftover s = .ok errors s1 := by
        simp only [leftover, exec_bind, exec_toResult, exec_nextStatementShouldBeEmpty]
        split <;> simp
      obtain ⟨errors, s1, hl⟩ := hl
      simp only [blockTail, exec_bind, hl, Res.andThen_ok]
      obtain ⟨cur, later⟩ := s1
      cases cur with
      | nil => simp
      | cons t r =>
        simp only [exec_peek_cons, Res.andThen_ok]
        split
        · simp
        · have := ih ⟨t :: r, later⟩
          rw [exec_bind]
          cases h : exec (parseBlock n stop) ⟨t :: r, later⟩ with
          | err => rintro ⟨⟩; exact this h
          | _ => simp
    obtain ⟨cur, later⟩ := s
    cases cur with
    | nil => rw [parseBlock_nil]; exact htail _ _
    | cons t cur =>
      rw [parseBlock_cons]
      have : ∀ e s', exec (parseStatement (parseBlock n) n t).toResult ⟨cur, later⟩ ≠ .err e s' := by
        intro e s'
        rw [exec_toResult]
        cases exec (parseStatement (parseBlock n) n t) ⟨cur, later⟩ <;> simp
      cases h : exec (parseStatement (parseBlock n) n t).toResult ⟨cur, later⟩ with
      | err => exact absurd h (this _ _)
      | ok x s => exact htail _ _
      | _ => simp

/-- More fuel changes nothing once there is enough. -/
theorem exec_mono {n m : Nat} (h : n ≤ m) (stop : Token → Bool) (s : Stmts)
    (hn : exec (parseBlock n stop) s ≠ .outOfFuel) :
    exec (parseBlock m stop) s = exec (parseBlock n stop) s :=
  (block_le' h stop).run _ s hn

theorem exec_enough {n : Nat} {stop : Token → Bool} {s : Stmts} (h : s.size + 2 ≤ n) :
    exec (parseBlock n stop) s ≠ .outOfFuel := by
  intro h'
  have := parseBlock_post n stop [] s
  unfold BlockPost at this
  rw [h'] at this
  exact this h

/-- `parse` on a list of statements. -/
def parseStmts (s : Stmts) : Out Block := (exec (parseBlock (s.size + 2) stopRoot) s).block

theorem parseStmts_eq {n : Nat} {s : Stmts} (h : s.size + 2 ≤ n) :
    (exec (parseBlock n stopRoot) s).block = parseStmts s := by
  unfold parseStmts
  rw [exec_mono h stopRoot s (exec_enough (Nat.le_refl _))]

/-- Any fuel that gives a result gives the result. -/
theorem parseStmts_of {n : Nat} {s : Stmts} {r : Out Block} (h : (exec (parseBlock n stopRoot) s).block = r)
    (hr : r ≠ .outOfFuel) : parseStmts s = r := by
  have h1 : exec (parseBlock n stopRoot) s ≠ .outOfFuel := by
    intro h'
    rw [h'] at h
    exact hr h.symm
  have h2 := exec_mono (Nat.le_max_left n (s.size + 2)) stopRoot s h1
  rw [← parseStmts_eq (Nat.le_max_right n (s.size + 2)), h2, h]

theorem parseWith_parseStmts {n : Nat} {tokens : List Token} (h : (split tokens).size + 2 ≤ n) :
    parseWith n tokens = parseStmts (split tokens) := by
  rw [parseWith_eq, parseStmts_eq h]

theorem parse_eq (tokens : List Token) : parse tokens = parseStmts (split tokens) := by
  have := split_size tokens
  exact parseWith_parseStmts (by unfold parseFuel; omega)

/-- What `parse` does, from `parseBlock_post`. -/
theorem parseStmts_post (s : Stmts) : match parseStmts s with
    | .ok nodes => (toksBlock nodes).Sublist s.tokens ∧ wfBlock nodes ∧
        (errorFreeBlock nodes → ∃ L s', Spans s L s' ∧ s'.cur = [] ∧ BlockG L nodes)
    | .panic p => PanicCause s.tokens s.all p
    | .outOfFuel => False := by
  have h := parseBlock_post (s.size + 2) stopRoot [] s
  unfold parseStmts
  unfold BlockPost at h
  cases hr : exec (parseBlock (s.size + 2) stopRoot) s with
  | ok nodes s' =>
    rw [hr] at h
    obtain ⟨used, h1, ⟨h2, hw⟩, h3, h4⟩ := h
    refine ⟨?_, hw, ?_⟩
    · rw [h1.1]
      exact h2.trans (List.sublist_append_left _ _)
    · intro he
      obtain ⟨L, h5, h6⟩ := h4 he
      refine ⟨L, s', h5, ?_, h6⟩
      rcases h3 with h | ⟨t, r, -, h⟩
      · exact h
      · simp [stopRoot] at h
  | err e s' => exact absurd hr (parseBlock_no_err _ _ _ _ _)
  | panic p => rw [hr] at h; exact h
  | outOfFuel => exact exec_enough (Nat.le_refl _) hr

/-! ## Empty statements at the end -/

/-- `s'` is `s` with empty statements added at the end. -/
def Stmts.Pad (s s' : Stmts) : Prop := s.cur = s'.cur ∧ ∃ k, s'.later = s.later ++ List.replicate k []

theorem Stmts.Pad.advance {s s' : Stmts} (h : s.Pad s') : s.advance.Pad s'.advance := by
  obtain ⟨c, l⟩ := s
  obtain ⟨c', l'⟩ := s'
  obtain ⟨rfl, k, rfl⟩ := h
  cases l with
  | nil =>
    cases k with
    | zero => exact ⟨rfl, 0, by simp [Stmts.advance]⟩
    | succ k => exact ⟨rfl, k, by simp [Stmts.advance, List.replicate_succ]⟩
  | cons c l => exact ⟨rfl, k, rfl⟩

theorem exec_pad {α : Type} (p : Prog α) {s s' : Stmts} (h : s.Pad s') : match exec p s, exec p s' with
    | .ok a t, .ok a' t' => a = a' ∧ t.Pad t'
    | .err e t, .err e' t' => e = e' ∧ t.Pad t'
    | .panic q, .panic q' => q = q'
    | .outOfFuel, .outOfFuel => True
    | _, _ => False := by
  unfold exec
  induction p generalizing s s' with
  | ret a => exact ⟨rfl, h⟩
  | err e => exact ⟨rfl, h⟩
  | panic q => rfl
  | outOfFuel => trivial
  | next k ih =>
    simp only [Prog.run, Stmts.ops]
    obtain ⟨c, l⟩ := s
    obtain ⟨c', l'⟩ := s'
    have hc := h.1
    dsimp only at hc
    subst hc
    cases c with
    | nil => exact ih none h
    | cons t c => exact ih (some t) ⟨rfl, h.2⟩
  | peek k ih =>
    simp only [Prog.run, Stmts.ops, h.1]
    exact ih _ h
  | nextStatement k ih =>
    simp only [Prog.run, Stmts.ops, h.1]
    exact ih _ h.advance

theorem parseStmts_pad {s s' : Stmts} (h : s.Pad s') : parseStmts s = parseStmts s' := by
  have h1 := exec_pad (parseBlock (max (s.size + 2) (s'.size + 2)) stopRoot) h
  rw [← parseStmts_eq (Nat.le_max_left (s.size + 2) (s'.size + 2)),
    ← parseStmts_eq (Nat.le_max_right (s.size + 2) (s'.size + 2))]
  revert h1
  cases exec (parseBlock (max (s.size + 2) (s'.size + 2)) stopRoot) s <;>
    cases exec (parseBlock (max (s.size + 2) (s'.size + 2)) stopRoot) s' <;>
    simp +contextual [Res.block]

/-- Completeness: a program of the grammar, then an empty statement or the end. -/
theorem parseStmts_complete {s s' : Stmts} {L : List (List Token)} {nodes : List Node} (h : BlockG L nodes)
    (hs : Spans s L s') (hc : s'.cur = []) : parseStmts s = .ok nodes := by
  obtain ⟨k, hk⟩ := hs
  have hpad : s.Pad (.of (L ++ s'.all)) := by
    obtain ⟨c, l⟩ := s
    rw [← hk]
    exact ⟨rfl, k, rfl⟩
  rw [parseStmts_pad hpad]
  obtain ⟨n, hn⟩ := h.complete stopRoot stopRoot_pred s'.all (.inl (by rw [Stmts.all, hc]; rfl))
  refine parseStmts_of (n := n) ?_ (by simp)
  rw [hn n (Nat.le_refl n)]
  rfl

/-! ## The statements of the iterator -/

theorem spans_iff {s : Stmts} {L : List (List Token)} : (∃ s', Spans s L s' ∧ s'.cur = []) ↔
    (∀ i < L.length, s.all.getD i [] = L.getD i []) ∧ s.all.getD L.length [] = [] := by
  constructor
  · rintro ⟨s', ⟨k, hk⟩, hc⟩
    have key : ∀ i, s.all.getD i [] = (L ++ s'.all).getD i [] := by
      intro i
      rw [← hk]
      simp only [List.getD_eq_getElem?_getD, List.getElem?_append]
      split
      · rfl
      · rename_i h
        rw [List.getElem?_eq_none (by omega)]
        simp only [List.getElem?_replicate]
        split <;> rfl
    constructor
    · intro i hi
      rw [key]
      simp [List.getD_eq_getElem?_getD, List.getElem?_append, hi]
    · rw [key]
      simp [List.getD_eq_getElem?_getD, Stmts.all, hc]
  · rintro ⟨h1, h2⟩
    obtain ⟨k, hk⟩ : ∃ k, L.length + 1 ≤ s.all.length + k := ⟨L.length + 1, by omega⟩
    refine ⟨⟨[], (s.all ++ List.replicate k []).drop (L.length + 1)⟩, ⟨k, ?_⟩, rfl⟩
    have key : ∀ i, (s.all ++ List.replicate k []).getD i [] = s.all.getD i [] := by
      intro i
      simp only [List.getD_eq_getElem?_getD, List.getElem?_append]
      split
      · rfl
      · rename_i h
        rw [List.getElem?_eq_none (l := s.all) (by omega)]
        simp only [List.getElem?_replicate]
        split <;> rfl
    have hlen : L.length + 1 ≤ (s.all ++ List.replicate k []).length := by simp; omega
    generalize s.all ++ List.replicate k [] = M at *
    apply List.ext_getElem
    · simp [Stmts.all]; omega
    · intro i hi hi'
      have e1 : M[i] = M.getD i [] := by simp [List.getD_eq_getElem?_getD, hi]
      rw [e1, key]
      rcases Nat.lt_trichotomy i L.length with h | h | h
      · rw [h1 i h]
        simp [List.getD_eq_getElem?_getD, h]
      · subst h
        rw [h2]
        simp [Stmts.all]
      · obtain ⟨j, rfl⟩ : ∃ j, i = L.length + 1 + j := ⟨i - (L.length + 1), by omega⟩
        rw [← key]
        simp [List.getD_eq_getElem?_getD, hi, List.getElem_append, Stmts.all,
          show ¬ (L.length + 1 + j < L.length) by omega, show L.length + 1 + j - L.length = j + 1 by omega]

/-- Only what `next_statement` returns matters. -/
theorem parseStmts_congr {s s' : Stmts} (h : ∀ k, s.all.getD k [] = s'.all.getD k []) :
    parseStmts s = parseStmts s' := by
  have key : ∀ (s s' : Stmts), (∀ k, s.all.getD k [] = s'.all.getD k []) → s.later.length ≤ s'.later.length →
      parseStmts s = parseStmts s' := by
    rintro ⟨c, l⟩ ⟨c', l'⟩ h hle
    refine parseStmts_pad ⟨by simpa [Stmts.all] using h 0, l'.length - l.length, ?_⟩
    dsimp only at hle ⊢
    apply List.ext_getElem
    · simp; omega
    · intro i hi hi'
      have := h (i + 1)
      simp only [Stmts.all, List.getD_cons_succ] at this
      have e1 : l'[i] = l'.getD i [] := by simp [List.getD_eq_getElem?_getD, hi]
      rw [e1, ← this]
      simp only [List.getElem_append, List.getD_eq_getElem?_getD]
      split
      · rename_i h
        simp [h]
      · rename_i h
        rw [List.getElem?_eq_none (by omega)]
        simp
  rcases Nat.le_total s.later.length s'.later.length with h1 | h1
  · exact key s s' h h1
  · exact (key s' s (fun k => (h k).symm) h1).symm

end Lol
