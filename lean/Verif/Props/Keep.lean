import Verif.Parser.KeepLemmas
import Verif.Props.ParserIterator
import Verif.Props.ParserProgram

/-! # What the tree leaves out (C76) -/

namespace Lol

/-- The statements that an error-free tree was built from, as a list. -/
theorem derived_range {tokens : List Token} {L : List (List Token)} {nodes : Block} (h : DerivedBy tokens L nodes) :
    L = (List.range L.length).map (stmt tokens) := by
  apply List.ext_getElem (by simp)
  intro i h1 h2
  have := h.2.1 i h1
  simp [List.getElem_map, this, List.getD, h1]

theorem NodeG.ne_nil {L : List (List Token)} {node : Node} (h : NodeG L node) : L ≠ [] := by
  cases h <;> simp

theorem BlockG.length_pos {L : List (List Token)} {nodes : List Node} (h : BlockG L nodes) : 0 < L.length := by
  cases h with
  | nodes h1 _ =>
    have := List.length_pos_iff.2 h1.ne_nil
    simp only [List.length_append]
    omega
  | skip _ => simp

/-! ## C76 -/

/-- **C76** If a program is parsed without errors, then the tokens of the statements up to the empty one at which
parsing ends, but for the markers, `AN` and `MKAY`, are the tokens of the tree but for the same, in the same order. -/
theorem C76_kept {tokens : List Token} {nodes : Block} (h : parse tokens = .ok nodes) (he : errorFreeBlock nodes) :
    ∃ n, 0 < n ∧ stmt tokens n = [] ∧ kept ((List.range n).flatMap (stmt tokens)) = kept (toksBlock nodes) := by
  obtain ⟨L, hL⟩ := (C38_error_free_iff tokens nodes).1 ⟨h, he⟩
  refine ⟨L.length, hL.1.length_pos, hL.2.2, ?_⟩
  rw [← hL.1.kept, List.flatMap_def, ← derived_range hL]

example : ∃ tokens nodes, tokenize chars!"x R SUM OF 1 AN 2\nGTFO" = .ok (.ok tokens) ∧ parse tokens = .ok nodes ∧
    errorFreeBlock nodes ∧ stmt tokens 2 = [] ∧ (kept (toksBlock nodes)).length = 6 := by
  refine ⟨_, _, rfl, rfl, ?_, by decide +kernel⟩
  repeat' constructor

/-- **C76** So every token of a statement before the first empty one, if it is neither a marker nor `AN` nor `MKAY`, is
in the tree. -/
theorem C76_mem {tokens : List Token} {nodes : Block} (h : parse tokens = .ok nodes) (he : errorFreeBlock nodes)
    {i : Nat} {t : Token} (hi : ∀ j ≤ i, stmt tokens j ≠ []) (ht : t ∈ stmt tokens i) (h1 : t.isMarker = false)
    (h2 : t.isAnOrMkay = false) : t ∈ toksBlock nodes := by
  obtain ⟨n, _, hn, hk⟩ := C76_kept h he
  have hlt : i < n := Nat.lt_of_not_le fun hle => hi n hle hn
  have hm : t ∈ kept ((List.range n).flatMap (stmt tokens)) := by
    simp only [kept, List.mem_filter, List.mem_flatMap, List.mem_range, h1, h2]
    exact ⟨⟨i, hlt, ht⟩, rfl⟩
  rw [hk] at hm
  exact (List.mem_filter.1 hm).1

example : ∃ tokens nodes, tokenize chars!"x R SUM OF 1 AN 2\nGTFO" = .ok (.ok tokens) ∧ parse tokens = .ok nodes ∧
    errorFreeBlock nodes ∧ (∀ j ≤ 1, stmt tokens j ≠ []) ∧
    ∃ t ∈ stmt tokens 0, t.isMarker = false ∧ t.isAnOrMkay = false := by
  refine ⟨_, _, rfl, rfl, ?_, by decide +kernel⟩
  repeat' constructor

/-- **C76** Without ellipses no token at all is lost but commas, markers, `AN` and `MKAY`. -/
theorem C76_all {tokens : List Token} {nodes : Block} (h : parse tokens = .ok nodes) (he : errorFreeBlock nodes)
    (hd : ∀ t ∈ tokens, t.tokenType ≠ .ellipsis) :
    kept (tokens.filter fun t => !t.isSeparator) = kept (toksBlock nodes) := by
  obtain ⟨n, hp, hn, hk⟩ := C76_kept h he
  rw [← hk, ← C24_lossless]
  congr 1
  have hlen : (split tokens).all.length ≤ n := by
    apply Nat.le_of_not_lt
    intro hlt
    obtain ⟨m, rfl⟩ : ∃ m, n = m + 1 := ⟨n - 1, by omega⟩
    unfold stmt at hn
    simp only [Stmts.all, List.length_cons, List.getD_cons_succ] at hn hlt
    apply (C24_no_empty hd).1
    rw [← hn]
    have hlt : m < (split tokens).later.length := by omega
    simp [List.getD, hlt]
  obtain ⟨k, rfl⟩ : ∃ k, n = (split tokens).all.length + k := ⟨n - (split tokens).all.length, by omega⟩
  rw [List.range_add, List.flatMap_append, List.flatMap_def, List.flatMap_def]
  have e1 : (List.range (split tokens).all.length).map (stmt tokens) = (split tokens).all := by
    apply List.ext_getElem (by simp)
    intro i h1 h2
    simp [stmt, List.getD, h2]
  have e2 : (((List.range k).map fun x => (split tokens).all.length + x).map (stmt tokens)).flatten = [] := by
    simp [stmt, List.getD]
  rw [e1, e2, List.append_nil]

example : ∃ tokens nodes, tokenize chars!"x R SUM OF 1 AN 2\nGTFO" = .ok (.ok tokens) ∧ parse tokens = .ok nodes ∧
    errorFreeBlock nodes ∧ (∀ t ∈ tokens, t.tokenType ≠ .ellipsis) ∧ tokens.length = 7 := by
  refine ⟨_, _, rfl, rfl, ?_, by decide +kernel⟩
  repeat' constructor

/-- **C76** Markers are in no tree without errors that has no `HAI`. -/
theorem C76_markers {tokens : List Token} {nodes : Block} (h : parse tokens = .ok nodes) (he : errorFreeBlock nodes)
    (hh : ∀ t ∈ toksBlock nodes, ¬ t.Is .HAI) : ∀ t ∈ toksBlock nodes, t.isMarker = false := by
  obtain ⟨L, hL⟩ := (C38_error_free_iff tokens nodes).1 ⟨h, he⟩
  exact hL.1.noMark hh

example : ∃ tokens nodes, tokenize chars!"x R 1\nIM IN YR a\nGTFO\nIM OUTTA YR a" = .ok (.ok tokens) ∧ parse tokens = .ok nodes ∧
    errorFreeBlock nodes ∧ (∀ t ∈ toksBlock nodes, ¬ t.Is .HAI) ∧
    ∃ t ∈ tokens, t.isMarker = true := by
  refine ⟨_, _, rfl, rfl, ?_, by decide +kernel⟩
  repeat' constructor

/-- A program with all kinds of markers. -/
def markedText : List Char :=
  chars!"x HAS A y ITZ 1\nI IZ f YR x AN YR x MKAY\nIM IN YR l UPPIN YR x TIL x\nGTFO\nIM OUTTA YR l\n" ++
  chars!"IM IN YR m NERFIN YR x WILE x\nGTFO\nIM OUTTA YR m\nO RLY?\nYA RLY\nGTFO\nOIC\n" ++
  chars!"HOW IZ I f YR x\nGTFO\nIF U SAY SO"

set_option maxRecDepth 8000 in
/-- **C76** Every kind of marker, `AN` and `MKAY` can be missing in the tree: for each there is a program without
errors in which it is a token of the program, but not of the tree. -/
theorem C76_lost : ∀ k ∈ Keyword.AN :: .MKAY :: markers, ∃ tokens nodes t, parse tokens = .ok nodes ∧
    errorFreeBlock nodes ∧ t ∈ tokens ∧ t.Is k ∧ t ∉ toksBlock nodes := by
  have h : ∃ tokens nodes, tokenize markedText = .ok (.ok tokens) ∧ parse tokens = .ok nodes ∧
      errorFreeBlock nodes ∧ ∀ k ∈ Keyword.AN :: .MKAY :: markers, ∃ t ∈ tokens, t.Is k ∧ t ∉ toksBlock nodes := by
    refine ⟨_, _, rfl, rfl, ?_, ?_⟩
    · repeat' constructor
    · decide +kernel
  obtain ⟨tokens, nodes, -, h1, h2, h3⟩ := h
  intro k hk
  obtain ⟨t, h4, h5, h6⟩ := h3 k hk
  exact ⟨tokens, nodes, t, h1, h2, h4, h5, h6⟩

-- a program without errors, with 14 tokens, of which 10 are in the tree
example : ∃ tokens nodes, tokenize chars!"I HAS A x ITZ SUM OF 1 AN 2, I IZ f YR x MKAY\nGTFO" = .ok (.ok tokens) ∧
    parse tokens = .ok nodes ∧ errorFreeBlock nodes ∧ (∀ t ∈ tokens, t.tokenType ≠ .ellipsis) ∧
    tokens.length = 14 ∧ (toksBlock nodes).length = 10 ∧ (kept (toksBlock nodes)).length = 9 ∧
    (∀ t ∈ toksBlock nodes, ¬ t.Is .HAI) ∧ (∀ j ≤ 1, stmt tokens j ≠ []) := by
  refine ⟨_, _, rfl, rfl, ?_, ?_⟩
  · repeat' constructor
  · decide +kernel

end Lol
