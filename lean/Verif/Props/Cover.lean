import Verif.Parser.CoverLemmas
import Verif.Props.Cut
import Verif.Props.ParserBlocks

/-! # Properties of `parse`: statements that leave no token in the tree (C41) -/

namespace Lol

/-- The reading of a program: the statements and the tokens that are read, and what they leave. -/
theorem parse_reads {tokens : List Token} {nodes : Block} (h : parse tokens = .ok nodes) :
    ∃ l L k, (split tokens).all = L ++ l ∧ (Stmts.of l).cur = [] ∧
      (Stmts.of l).later = (split tokens).later.drop k ∧ (toksBlock nodes).Sublist L.flatten ∧
      (∀ i st, L[i]? = some st → Shown (toksBlock nodes) st ∨ InFailed (errorsBlock nodes) (split tokens).all i) ∧
      ∀ tokens', (∀ i, i ≤ k → stmt tokens' i = stmt tokens i) → parse tokens' = .ok nodes := by
  rw [parse_eq] at h
  have h1 := parseBlock_read ((split tokens).size + 2) stopRoot [] (split tokens) recognises_root
  have h2 := parseBlock_post ((split tokens).size + 2) stopRoot [] (split tokens)
  obtain ⟨k, k1, k2⟩ := exec_reads (parseBlock ((split tokens).size + 2) stopRoot) (split tokens)
  unfold parseStmts at h
  unfold BlockPost at h2
  cases he : exec (parseBlock ((split tokens).size + 2) stopRoot) (split tokens) with
  | ok a s' =>
    rw [he] at h1 h h2 k1 k2
    cases h
    obtain ⟨used, h3, ⟨h4, -⟩, -⟩ := h2
    have h1 : BlockR [] (split tokens) (.ok nodes s') := h1
    obtain ⟨l, rfl, L, hA, hL⟩ := h1.covered (split tokens).all (of_all _)
    refine ⟨l, L, k, hA, stop_root.1 (h1.stop _ _ rfl), k1, ?_, hL, fun tokens' ht => ?_⟩
    · have h5 : (split tokens).tokens = used ++ (Stmts.of l).tokens := h3.1
      have h6 : (Stmts.of l).tokens = l.flatten := by cases l <;> simp [Stmts.tokens, Stmts.of]
      have h7 : (split tokens).tokens = (split tokens).all.flatten := by simp [Stmts.tokens, Stmts.all]
      rw [h6, h7, hA, List.flatten_append] at h5
      rwa [List.append_cancel_right h5]
    · have h5 := k2 (split tokens') ⟨(ht 0 (by omega)).symm, fun i hi => (ht (i + 1) (by omega)).symm⟩
      rw [parse_eq]
      exact parseStmts_of (n := (split tokens).size + 2) (by rw [h5]; rfl) (by simp)
  | err e s' => exact absurd he (parseBlock_no_err _ _ _ _ _)
  | panic p => rw [he] at h; cases h
  | outOfFuel => rw [he] at h; cases h

/-- **C41** (partial) Every program is read up to an empty statement, the `n`th, or to its end. What follows does not
matter, and the tree holds no token of it. Every statement before it that is not empty leaves a token in the tree, or is
`OIC` or `IF U SAY SO`, or belongs to a loop, function, switch or conditional whose heading is right and that fails, and
its error is in the tree. -/
theorem C41_read_partial {tokens : List Token} {nodes : Block} (h : parse tokens = .ok nodes) :
    ∃ n, stmt tokens n = [] ∧ (toksBlock nodes).Sublist ((split tokens).all.take n).flatten ∧
      (∀ tokens', (∀ i, i ≤ n → stmt tokens' i = stmt tokens i) → parse tokens' = .ok nodes) ∧
      ∀ i, i < n → stmt tokens i ≠ [] → (∃ t ∈ stmt tokens i, t ∈ toksBlock nodes) ∨ Closing (stmt tokens i) ∨
        InFailed (errorsBlock nodes) (split tokens).all i := by
  obtain ⟨l, L, k, hA, hcur, hk, hs, hL, hloc⟩ := parse_reads h
  have hl : ∀ i, L.length ≤ i → i < max k L.length + 1 → stmt tokens i = [] := by
    intro i h1 h2
    rw [stmt, hA, List.getD_eq_getElem?_getD, List.getElem?_append_right h1]
    by_cases h0 : i = L.length
    · subst h0
      cases l with
      | nil => simp
      | cons c l => simp only [Stmts.of] at hcur; simp [hcur]
    · have hk' : L.length < k := by omega
      have hlen : (split tokens).later.length + 1 = L.length + l.length := by
        rw [← List.length_append, ← hA]; rfl
      have h3 := congrArg List.length hk
      rw [List.length_drop] at h3
      have h4 : l.length ≤ 1 := by
        cases l with
        | nil => simp
        | cons c l => simp only [Stmts.of, List.length_cons] at h3 hlen ⊢; omega
      rw [List.getElem?_eq_none (by omega)]
      rfl
  refine ⟨max k L.length, hl _ (Nat.le_max_right _ _) (by omega), ?_,
    fun tokens' ht => hloc tokens' fun i hi => ht i (by omega), fun i hi hne => ?_⟩
  · refine hs.trans ?_
    rw [hA, List.take_append, List.take_of_length_le (Nat.le_max_right _ _), List.flatten_append]
    exact List.sublist_append_left _ _
  · have hi : i < L.length := Nat.lt_of_not_le fun hle => hne (hl i hle (by omega))
    have hst : L[i]? = some (stmt tokens i) := by
      rw [stmt, hA, List.getD_eq_getElem?_getD, List.getElem?_append_left hi]
      simp [hi]
    rcases hL i _ hst with (h | h | h) | h
    · exact absurd h hne
    · exact .inl h
    · exact .inr (.inl h)
    · exact .inr (.inr h)

-- an empty statement in a loop that is not closed ends the loop, a later one ends the program: the statements between
-- them are kept, the last one is not
example : ∃ tokens nodes, tokenize chars!"IM IN YR l\nGTFO\n..., GTFO\nVISIBLE x\n..., KTHXBYE" = .ok (.ok tokens) ∧
    parse tokens = .ok nodes ∧ stmt tokens 2 = [] ∧ (∃ t ∈ stmt tokens 3, t ∈ toksBlock nodes) ∧
    (∃ t ∈ stmt tokens 4, t ∈ toksBlock nodes) ∧ stmt tokens 5 = [] ∧ stmt tokens 6 ≠ [] ∧
    ∀ t ∈ stmt tokens 6, t ∉ toksBlock nodes := by
  obtain ⟨tokens, h⟩ : ∃ ts, tokenize chars!"IM IN YR l\nGTFO\n..., GTFO\nVISIBLE x\n..., KTHXBYE" = .ok (.ok ts) :=
    ⟨_, rfl⟩
  refine ⟨tokens, ?_⟩
  rw [h]
  cases h
  refine ⟨_, rfl, rfl, ?_⟩
  decide +kernel

/-- **C41** (partial: only before the first empty statement) Every statement before the first empty one leaves a token
in the tree, errors included, or is `OIC` or `IF U SAY SO`, or belongs to a loop, function, switch or conditional
whose heading is right and that fails, and its error is in the tree. -/
theorem C41_kept_partial {tokens : List Token} {nodes : Block} (h : parse tokens = .ok nodes) {i : Nat}
    (hi : ∀ j ≤ i, stmt tokens j ≠ []) :
    (∃ t ∈ stmt tokens i, t ∈ toksBlock nodes) ∨ Closing (stmt tokens i) ∨
      InFailed (errorsBlock nodes) (split tokens).all i := by
  obtain ⟨n, h1, -, -, h2⟩ := C41_read_partial h
  exact h2 i (Nat.lt_of_not_le fun hle => hi n hle h1) (hi i (Nat.le_refl _))

-- a loop whose last label is missing, between two other statements: the tree holds tokens of the first statement and
-- of the last one, none of the body of the loop, and the error of the loop
example : ∃ tokens nodes, tokenize chars!"x R 1\nIM IN YR l\nGTFO\nIM OUTTA YR\nGTFO" = .ok (.ok tokens) ∧
    parse tokens = .ok nodes ∧ (∀ j ≤ 3, stmt tokens j ≠ []) ∧ (∃ t ∈ stmt tokens 0, t ∈ toksBlock nodes) ∧
    InFailed (errorsBlock nodes) (split tokens).all 2 ∧
    (match errorsBlock nodes with | [.imInYr (.missingEndLabel _)] => True | _ => False) := by
  obtain ⟨tokens, h⟩ : ∃ ts, tokenize chars!"x R 1\nIM IN YR l\nGTFO\nIM OUTTA YR\nGTFO" = .ok (.ok ts) := ⟨_, rfl⟩
  refine ⟨tokens, ?_⟩
  rw [h]
  cases h
  refine ⟨_, rfl, rfl, by decide +kernel, by decide +kernel, ?_, trivial⟩
  refine ((C41_kept_partial rfl (i := 2) (by decide +kernel)).resolve_left (by decide +kernel)).resolve_left ?_
  rintro ⟨c, h1, h2⟩
  cases h1
  exact absurd h2 (by decide +kernel)

end Lol
