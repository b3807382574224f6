import Verif.Parser.CostLemmas

/-! # The tokens that pay for the calls, and programs that take the most calls -/

namespace Lol

/-- The statements of a token list and the empty ones between them are not more than the tokens. -/
theorem weight_aux (r : List Token) :
    (∀ line, (splitFrom r line).weight ≤ r.length) ∧
      ((splitGap r).map fun c => max 1 c.length).sum ≤ r.length := by
  induction r with
  | nil => simp [splitFrom, splitGap, Stmts.weight]
  | cons t r ih =>
    obtain ⟨ih1, ih2⟩ := ih
    have all : ∀ line, ((splitFrom r line).all.map fun c => max 1 c.length).sum ≤ r.length + 1 := by
      intro line
      have := ih1 line
      simp only [Stmts.weight, Stmts.all, List.map_cons, List.sum_cons] at *
      omega
    have push : ∀ line, (((splitFrom r line).push t).all.map fun c => max 1 c.length).sum ≤ r.length + 1 := by
      intro line
      have := ih1 line
      simp only [Stmts.weight, Stmts.push, Stmts.all, List.map_cons, List.sum_cons, List.length_cons] at *
      omega
    have nil : ∀ L : List (List Token), Stmts.weight ⟨[], L⟩ = (L.map fun c => max 1 c.length).sum := by
      intro L; simp [Stmts.weight]
    by_cases hc : t.tokenType = .comma
    · refine ⟨fun line => ?_, ?_⟩
      · rw [splitFrom, if_pos hc, nil, List.length_cons]; omega
      · rw [splitGap, if_pos hc, List.length_cons]; omega
    · refine ⟨fun line => ?_, ?_⟩
      · rw [splitFrom, if_neg hc, List.length_cons]
        split
        · split
          · have := ih1 (firstLine r line); omega
          · have := ih1 line
            simp only [Stmts.weight, Stmts.push, List.length_cons] at *; omega
        · rw [nil]
          split
          · exact all _
          · exact push _
      · rw [splitGap, if_neg hc, List.length_cons]
        split
        · exact all _
        · exact push _

/-- If the first statement is empty then the first token is none of a statement. -/
theorem split_weight {tokens : List Token} (h : tokens ≠ []) :
    (split tokens).weight + (if (split tokens).cur = [] then 1 else 0) ≤ tokens.length := by
  cases tokens with
  | nil => exact absurd rfl h
  | cons t r =>
    obtain ⟨h1, h2⟩ := weight_aux r
    unfold split
    rw [splitFrom, List.length_cons]
    by_cases hc : t.tokenType = .comma
    · rw [if_pos hc, if_pos rfl]
      simp only [Stmts.weight, List.length_nil]; omega
    · rw [if_neg hc, if_pos (show t.range.start.line = firstLine (t :: r) 0 from rfl)]
      split
      · have := h1 (firstLine r (firstLine (t :: r) 0))
        split <;> omega
      · have := h1 (firstLine (t :: r) 0)
        rw [if_neg (by simp [Stmts.push])]
        simp only [Stmts.weight, Stmts.push, List.length_cons] at *; omega

theorem calls_visible (t u : Token) (c : List Token) (l : List (List Token)) (n : Nat)
    (ht : t.tokenType = .keyword .VISIBLE) :
    cost (parseBlock (n + 2) stopRoot) ⟨[t], (u :: c) :: l⟩ = 6 + cost (parseBlock (n + 1) stopRoot) ⟨u :: c, l⟩ := by
  obtain ⟨ty, r⟩ := t
  cases ht
  have h : ∀ nodes : Block, cost (parseBlock (n + 1) stopRoot >>= fun more => pure (nodes ++ more)) ⟨u :: c, l⟩ =
      cost (parseBlock (n + 1) stopRoot) ⟨u :: c, l⟩ := by
    intro nodes
    refine (Prog.calls_bind _ _ _).trans ?_
    cases exec (parseBlock (n + 1) stopRoot) ⟨u :: c, l⟩ <;> rfl
  show 1 + (1 + (1 + (2 + (1 + cost (parseBlock (n + 1) stopRoot >>= fun more => pure (_ ++ more)) ⟨u :: c, l⟩)))) = _
  rw [h]
  omega

theorem calls_loop' (r r' : Range) (x : Str) (n : Nat) :
    cost (parseBlock (n + 3) stopRoot) ⟨[⟨.keyword .IM_IN_YR, r⟩, ⟨.identifier x, r'⟩], []⟩ = 14 := by
  show 1 + (1 + (1 + (1 + (2 + (1 + (2 + (1 + (1 + (2 + (1 + 0)))))))))) = 14
  rfl

theorem calls_loop (t u : Token) (x : Str) (n : Nat) (ht : t.tokenType = .keyword .IM_IN_YR)
    (hu : u.tokenType = .identifier x) : cost (parseBlock (n + 3) stopRoot) ⟨[t, u], []⟩ = 14 := by
  obtain ⟨ty, r⟩ := t
  obtain ⟨ty', r'⟩ := u
  have ht : ty = .keyword .IM_IN_YR := ht
  have hu : ty' = .identifier x := hu
  subst ht hu
  exact calls_loop' r r' x n

/-- Lines `VISIBLE` and then `IM IN YR x`. -/
def costly (n : Nat) : List (List TokenType) :=
  List.replicate n [.keyword .VISIBLE] ++ [[.keyword .IM_IN_YR, .identifier ['x']]]

theorem calls_costly {n m : Nat} {sts : List (List Token)} (h : sts.map (List.map (·.tokenType)) = costly n)
    (hm : n + 3 ≤ m) : cost (parseBlock m stopRoot) (.of sts) = 6 * n + 14 := by
  induction n generalizing sts m with
  | zero =>
    obtain ⟨a, rfl, ha⟩ : ∃ a, sts = [a] ∧ a.map (·.tokenType) = [.keyword .IM_IN_YR, .identifier ['x']] := by
      simpa [costly, List.map_eq_cons_iff] using h
    obtain ⟨t, b, rfl, ht, hb⟩ := List.map_eq_cons_iff.1 ha
    obtain ⟨u, b, rfl, hu, hb⟩ := List.map_eq_cons_iff.1 hb
    obtain rfl := List.map_eq_nil_iff.1 hb
    obtain ⟨k, rfl⟩ : ∃ k, m = k + 3 := ⟨m - 3, by omega⟩
    exact calls_loop t u _ k ht hu
  | succ n ih =>
    rw [show costly (n + 1) = [.keyword .VISIBLE] :: costly n from rfl] at h
    obtain ⟨a, sts, rfl, ha, hs⟩ := List.map_eq_cons_iff.1 h
    obtain ⟨t, b, rfl, ht, hb⟩ := List.map_eq_cons_iff.1 ha
    obtain rfl := List.map_eq_nil_iff.1 hb
    obtain ⟨k, rfl⟩ : ∃ k, m = k + 2 := ⟨m - 2, by omega⟩
    have h1 := ih (m := k + 1) hs (by omega)
    obtain ⟨u, c, l, rfl⟩ : ∃ u c l, sts = (u :: c) :: l := by
      have hne : ∀ n, ∃ ty tys L, costly n = (ty :: tys) :: L := by
        intro n
        cases n with
        | zero => exact ⟨_, _, _, rfl⟩
        | succ n => exact ⟨_, _, _, rfl⟩
      obtain ⟨ty, tys, L, hL⟩ := hne n
      rw [hL] at hs
      obtain ⟨a, l, rfl, ha, -⟩ := List.map_eq_cons_iff.1 hs
      obtain ⟨u, c, rfl, -⟩ := List.map_eq_cons_iff.1 ha
      exact ⟨u, c, l, rfl⟩
    refine (calls_visible t u c l k ht).trans ?_
    rw [show cost (parseBlock (k + 1) stopRoot) ⟨u :: c, l⟩ = 6 * n + 14 from h1]
    omega

/-- A program takes no more tokens than it makes calls. -/
theorem exec_read {α : Type} (p : Prog α) {s s' : Stmts} {a : α} (h : exec p s = .ok a s') :
    s.tokens.length ≤ cost p s + s'.tokens.length := by
  induction p generalizing s with
  | ret => cases h; exact Nat.le_add_left ..
  | err | panic | outOfFuel => cases h
  | next k ih =>
    obtain ⟨cur, later⟩ := s
    cases cur with
    | nil =>
      have h1 : (Stmts.tokens ⟨[], later⟩).length ≤ cost (k none) ⟨[], later⟩ + s'.tokens.length := ih none h
      show _ ≤ 1 + cost (k none) ⟨[], later⟩ + _
      omega
    | cons t cur =>
      have h1 : (Stmts.tokens ⟨cur, later⟩).length ≤ cost (k (some t)) ⟨cur, later⟩ + s'.tokens.length := ih (some t) h
      have h2 : (Stmts.tokens ⟨t :: cur, later⟩).length = (Stmts.tokens ⟨cur, later⟩).length + 1 := by
        simp [Stmts.tokens]
      show _ ≤ 1 + cost (k (some t)) ⟨cur, later⟩ + _
      omega
  | peek k ih =>
    have h1 : s.tokens.length ≤ cost (k s.cur.head?) s + s'.tokens.length := ih _ (s := s) h
    show _ ≤ 1 + cost (k s.cur.head?) s + _
    omega
  | nextStatement k ih =>
    have h1 := ih _ h
    have h2 : s.tokens.length = s.cur.length + s.advance.tokens.length := by
      obtain ⟨cur, later⟩ := s
      cases later <;> simp [Stmts.tokens, Stmts.advance]
    have h3 : s.advance.tokens.length ≤ cost (k s.cur) s.advance + s'.tokens.length := h1
    show _ ≤ 2 + s.cur.length + cost (k s.cur) s.advance + _
    omega

end Lol
