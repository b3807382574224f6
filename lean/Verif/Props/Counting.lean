import Verif.Parser.CountLemmas
import Verif.Props.Keep
import Verif.Props.ParserTree
import Verif.Props.SourceText

/-! # How many nodes the statements give (C85) -/

namespace Lol

/-- What `parse` counts. -/
theorem parse_counted {tokens : List Token} {nodes : Block} (h : parse tokens = .ok nodes) :
    kinds (allNodes nodes) ≤ nonEmpty (split tokens).all ∧ lefts (allNodes nodes) ≤ nonEmpty (split tokens).all ∧
      (starts (allNodes nodes)).Sublist (firstTokens (split tokens).all) := by
  rw [parse_eq] at h
  obtain ⟨s', h1⟩ := parseStmts_ok_iff.1 h
  have h2 : Whole (allNodes nodes) s' (split tokens) := h1.counts
  have h3 := h2.kinds
  have h4 := h2.lefts
  exact ⟨by omega, by omega, (List.sublist_append_left _ _).trans h2.starts⟩

theorem map_head_of {α : Type} {f : α → Option Token} {l : List α} (h : ∀ a ∈ l, f a ≠ none) :
    l.map f = (l.filterMap f).map some := by
  induction l with
  | nil => rfl
  | cons a l ih =>
    have h1 := h a List.mem_cons_self
    cases ha : f a with
    | none => exact absurd ha h1
    | some t => simp [ha, ih fun b hb => h b (List.mem_cons_of_mem _ hb)]

theorem firstTokens_filter (L : List (List Token)) : firstTokens L = (L.filter (· ≠ [])).filterMap List.head? := by
  induction L with
  | nil => rfl
  | cons c L ih =>
    cases c with
    | nil => rw [firstTokens_cons_nil, ih]; simp
    | cons t c => rw [firstTokens_cons_cons, ih]; simp

theorem Node.toks_ne_nil_of {n : Node} (h : n.isError = false) : n.toks ≠ [] := by
  cases n <;> simp_all [Node.isError, Node.toks, VariableAccess.toks_ne_nil', Expr.toks_ne_nil]

/-- How many statements there are, but for the first, when the lines are in order. -/
theorem split_count (tokens : List Token) : ∀ hi : Int, (∀ t ∈ tokens, t.range.start.line ≤ hi) →
    tokens.Pairwise (fun a b => a.range.start.line ≤ b.range.start.line) →
    (∀ line ≤ hi, (∀ t ∈ tokens, line ≤ t.range.start.line) →
      (nonEmpty (splitFrom tokens line).later : Int) ≤
        (tokens.countP fun t => t.tokenType = .comma) + (hi - line)) ∧
    ∀ line ≤ hi, (∀ t ∈ tokens, line ≤ t.range.start.line) →
      (nonEmpty (splitGap tokens) : Int) ≤ 1 + (tokens.countP fun t => t.tokenType = .comma) + (hi - line) := by
  induction tokens with
  | nil =>
    intro hi _ _
    constructor <;> intro line h _
    · simp [splitFrom]; omega
    · simp [splitGap]; omega
  | cons t rest ih =>
    intro hi h1 h2
    obtain ⟨h3, h4⟩ := List.pairwise_cons.1 h2
    obtain ⟨ih1, ih2⟩ := ih hi (fun u hu => h1 u (List.mem_cons_of_mem _ hu)) h4
    have ht := h1 t List.mem_cons_self
    have hle : ∀ s : Stmts, (nonEmpty s.all : Int) ≤ 1 + nonEmpty s.later := by
      intro s
      have h5 : nonEmpty s.all = some1 s.cur + nonEmpty s.later := nonEmpty_cons ..
      have := some1_le s.cur
      omega
    have hf : ∀ line, line ≤ hi → (∀ u ∈ rest, line ≤ u.range.start.line) →
        firstLine rest line ≤ hi ∧ line ≤ firstLine rest line ∧ ∀ u ∈ rest, firstLine rest line ≤ u.range.start.line := by
      intro line hl hr
      cases rest with
      | nil => exact ⟨hl, Int.le_refl _, by simp⟩
      | cons u rest =>
        refine ⟨h1 u (by simp), hr u (by simp), fun v hv => ?_⟩
        rcases List.mem_cons.1 hv with rfl | hv
        · exact Int.le_refl _
        · exact (List.pairwise_cons.1 h4).1 v hv
    constructor
    · intro line hl hlo
      have hlt := hlo t List.mem_cons_self
      have hlr : ∀ u ∈ rest, line ≤ u.range.start.line := fun u hu => hlo u (List.mem_cons_of_mem _ hu)
      unfold splitFrom
      split
      · rename_i hc
        have := ih2 line hl hlr
        simp only [List.countP_cons, hc]
        simp
        omega
      · rename_i hc
        have hcount : ((t :: rest).countP fun t => t.tokenType = .comma) =
            rest.countP fun t => t.tokenType = .comma := by simp [List.countP_cons, hc]
        rw [hcount]
        split
        · split
          · obtain ⟨a1, a2, a3⟩ := hf line hl hlr
            have := ih1 _ a1 a3
            omega
          · exact ih1 line hl hlr
        · rename_i hne
          split
          · obtain ⟨a1, a2, a3⟩ := hf t.range.start.line ht h3
            have := ih1 _ a1 a3
            have := hle (splitFrom rest (firstLine rest t.range.start.line))
            simp only
            omega
          · have := ih1 t.range.start.line ht h3
            have := hle ((splitFrom rest t.range.start.line).push t)
            simp only [Stmts.push] at this ⊢
            omega
    · intro line hl hlo
      have hlt := hlo t List.mem_cons_self
      have hlr : ∀ u ∈ rest, line ≤ u.range.start.line := fun u hu => hlo u (List.mem_cons_of_mem _ hu)
      unfold splitGap
      split
      · rename_i hc
        have := ih2 line hl hlr
        simp only [List.countP_cons, hc]
        simp
        omega
      · rename_i hc
        have hcount : ((t :: rest).countP fun t => t.tokenType = .comma) =
            rest.countP fun t => t.tokenType = .comma := by simp [List.countP_cons, hc]
        rw [hcount]
        split
        · obtain ⟨a1, a2, a3⟩ := hf t.range.start.line ht h3
          have := ih1 _ a1 a3
          have := hle (splitFrom rest (firstLine rest t.range.start.line))
          omega
        · have := ih1 t.range.start.line ht h3
          have := hle ((splitFrom rest t.range.start.line).push t)
          simp only [Stmts.push] at this ⊢
          omega

theorem nonEmpty_congr : {A B : List (List Token)} → (∀ k, A.getD k [] = B.getD k []) → nonEmpty A = nonEmpty B
  | [], [], _ => rfl
  | [], b :: B, h => by
    have hb : b = [] := (h 0).symm
    subst hb
    rw [nonEmpty_cons, some1_nil, Nat.zero_add]
    exact nonEmpty_congr fun k => h (k + 1)
  | a :: A, [], h => by
    have ha : a = [] := h 0
    subst ha
    rw [nonEmpty_cons, some1_nil, Nat.zero_add]
    exact nonEmpty_congr fun k => h (k + 1)
  | a :: A, b :: B, h => by
    have hab : a = b := h 0
    subst hab
    rw [nonEmpty_cons, nonEmpty_cons, nonEmpty_congr fun k => h (k + 1)]

theorem scan_count {code rest : Str} {p q : Position} {ts : List Token} (h : Scan code p ts rest q) :
    ((ts.countP fun t => t.tokenType = .comma) ≤ code.count ',') ∧
      ∀ t ∈ ts, t.range.start.line ≤ p.line + code.count '\n' := by
  induction h with
  | refl => simp
  | ws c code p ts code' p' hc hs ih =>
    refine ⟨Nat.le_trans ih.1 (List.count_le_count_cons ..), fun t ht => ?_⟩
    have h1 := ih.2 t ht
    unfold Position.afterWs at h1
    split at h1
    · rename_i he
      subst he
      simp only [List.count_cons_self]
      simp only at h1
      omega
    · have : code.count '\n' ≤ (c :: code).count '\n' := List.count_le_count_cons ..
      simp only at h1
      omega
  | tok lex rest ty p ts code' p' hl hs ih =>
    constructor
    · rw [List.count_append, List.countP_cons]
      split
      · rename_i hc
        have hc : ty = .comma := by simpa using hc
        subst hc
        cases hl
        have := ih.1
        simp
        omega
      · have := ih.1
        omega
    · intro t ht
      rw [List.count_append]
      rcases List.mem_cons.1 ht with rfl | ht
      · simp only; omega
      · have := ih.2 t ht
        simp only [Position.afterLexeme] at this
        omega

/-! ## C85 -/

/-- **C85** Every node of the tree that is no error, at any depth, starts where a statement starts, and no two of them
start in the same statement: their first tokens are, in this order, first tokens of statements. -/
theorem C85_begin {tokens : List Token} {nodes : Block} (h : parse tokens = .ok nodes) :
    (((allNodes nodes).filter fun n => !n.isError).map fun n => n.toks.head?).Sublist
      (((split tokens).all.filter (· ≠ [])).map List.head?) := by
  rw [map_head_of (l := (allNodes nodes).filter _), map_head_of (l := (split tokens).all.filter _),
    ← firstTokens_filter]
  · exact (parse_counted h).2.2.map some
  · intro c hc
    have := (List.mem_filter.1 hc).2
    cases c <;> simp_all
  · intro n hn
    have := Node.toks_ne_nil_of (by simpa using (List.mem_filter.1 hn).2)
    cases hc : n.toks <;> simp_all

-- Three statements, the first with a token too much and the last with an error: two nodes
example : ∃ tokens nodes, tokenize chars!"GTFO 1\nx R 2\nNOT " = .ok (.ok tokens) ∧ parse tokens = .ok nodes ∧
    ((allNodes nodes).filter fun n => !n.isError).length = 2 ∧ (split tokens).all.length = 3 := by
  refine ⟨_, _, rfl, rfl, by decide +kernel⟩

/-- **C85** There are at most as many errors about leftover tokens as there are statements that are not empty, and at
most as many nodes and errors of other kinds, all depths together. -/
theorem C85_count {tokens : List Token} {nodes : Block} (h : parse tokens = .ok nodes) :
    (allNodes nodes).countP Node.isLeftover ≤ nonEmpty (split tokens).all ∧
      ((allNodes nodes).countP fun n => !n.isLeftover) ≤ nonEmpty (split tokens).all :=
  ⟨(parse_counted h).2.1, (parse_counted h).1⟩

-- A loop with two statements: its four nodes are the loop, `GTFO`, an error about `GIMMEH 1`, and the tokens left
-- after it; three of the four statements start one
set_option maxRecDepth 8000 in
example : ∃ tokens nodes, tokenize chars!"IM IN YR a\nGTFO\nGIMMEH 1 2 \nIM OUTTA YR a" = .ok (.ok tokens) ∧
    parse tokens = .ok nodes ∧ nonEmpty (split tokens).all = 4 ∧ (allNodes nodes).length = 4 ∧
    (allNodes nodes).countP Node.isLeftover = 1 ∧ ((allNodes nodes).filter fun n => !n.isError).length = 2 := by
  refine ⟨_, _, rfl, rfl, ?_⟩; decide +kernel

/-- **C85** So the tree of a source text has at most two nodes, errors included and at any depth, for every line and
for every comma in the text. -/
theorem C85_lines {text : Str} {nodes : Block} (h : tokenizeAndParse text = .ok (.ok nodes)) :
    (allNodes nodes).length ≤ 2 * (1 + text.count '\n' + text.count ',') := by
  obtain ⟨tokens, ht, hp⟩ : ∃ tokens, tokenize text = .ok (.ok tokens) ∧ parse tokens = .ok nodes :=
    (C46_ok_iff text nodes).1 h
  obtain ⟨h1, h2⟩ := C85_count hp
  have h3 : (allNodes nodes).length = (allNodes nodes).countP Node.isLeftover +
      (allNodes nodes).countP fun n => !n.isLeftover := by
    rw [List.length_eq_countP_add_countP Node.isLeftover]; simp
  obtain ⟨q, hq⟩ := tokenize_scan ht
  obtain ⟨h4, h5⟩ := scan_count hq
  obtain ⟨h6, h7⟩ := scan_ordered hq
  have h8 : nonEmpty (split tokens).all ≤ 1 + text.count '\n' + text.count ',' := by
    have h9 : nonEmpty (split tokens).all = some1 (split tokens).cur + nonEmpty (split tokens).later :=
      nonEmpty_cons ..
    have h10 := some1_le (split tokens).cur
    have h11 : (nonEmpty (split tokens).later : Int) ≤
        (tokens.countP fun t => t.tokenType = .comma) + (1 + text.count '\n' - firstLine tokens 1) := by
      have h13 := (split_count tokens (1 + text.count '\n') h5 (h7.imp_of_mem fun {a b} ha hb hab => by
        have h14 := (h6 a ha).2.1.2
        rcases hab with hab | ⟨_, hab⟩
        · rw [← hab]; omega
        · omega)).1
      cases tokens with
      | nil => simp [split, splitFrom, firstLine]; omega
      | cons t ts =>
        refine h13 t.range.start.line (h5 t List.mem_cons_self) fun u hu => ?_
        rcases List.mem_cons.1 hu with rfl | hu
        · exact Int.le_refl _
        · have h14 := (h6 t List.mem_cons_self).2.1.2
          rcases (List.pairwise_cons.1 h7).1 u hu with hab | ⟨_, hab⟩
          · rw [← hab]; omega
          · omega
    have h12 : 1 ≤ firstLine tokens 1 := by
      cases tokens with
      | nil => exact Int.le_refl _
      | cons t ts =>
        rcases (h6 t List.mem_cons_self).1 with h | ⟨_, h⟩
        · rw [firstLine, ← h]; decide
        · simp only [Position.first] at h
          simp only [firstLine]
          omega
    omega
  omega

-- Two lines with a comma: six nodes, two for each of the three statements
example : ∃ nodes, tokenizeAndParse chars!"GTFO GTFO,GTFO x\nGTFO 1 " = .ok (.ok nodes) ∧
    (allNodes nodes).length = 6 := by
  refine ⟨_, rfl, ?_⟩; decide +kernel

/-- **C85** The bound is reached by programs of any size: `n + 1` lines, each of which gives two nodes. -/
theorem C85_tight (n : Nat) : ∃ text tokens nodes, tokenize text = .ok (.ok tokens) ∧ parse tokens = .ok nodes ∧
    nonEmpty (split tokens).all = n + 1 ∧ (allNodes nodes).countP Node.isLeftover = n + 1 ∧
      ((allNodes nodes).countP fun n => !n.isLeftover) = n + 1 := by
  obtain ⟨text, us, h1, h2⟩ := C57_statements (L := List.replicate (n + 1) [.keyword .GTFO, .keyword .GTFO])
    (fun st hst => by
      rw [List.eq_of_mem_replicate hst]
      have hk : Keyword.GTFO ∉ hiddenKeywords := by decide
      exact ⟨hk, hk, trivial⟩) (fun st hst => by
      rw [List.eq_of_mem_replicate hst]
      simp)
  let M := (List.range (n + 1)).map (stmt us)
  have hM : ∀ k, (split us).all.getD k [] = M.getD k [] := by
    intro k
    by_cases hk : k < n + 1
    · simp [M, List.getD, hk, stmt]
    · have h3 := h2 k
      have h4 : (List.replicate (n + 1) [TokenType.keyword .GTFO, .keyword .GTFO]).getD k [] = [] := by
        simp [List.getD, hk]
      rw [h4, List.map_eq_nil_iff] at h3
      have h5 : M.getD k [] = [] := by simp [M, List.getD, hk]
      rw [h5]
      exact h3
  have hst : ∀ st ∈ M, ∃ a b, st = [a, b] ∧ a.Is .GTFO := by
    intro st hs
    obtain ⟨k, hk, rfl⟩ := List.mem_map.1 hs
    have h3 := h2 k
    have h4 : (List.replicate (n + 1) [TokenType.keyword .GTFO, .keyword .GTFO]).getD k [] =
        [.keyword .GTFO, .keyword .GTFO] := by
      simp [List.getD, List.mem_range.1 hk]
    rw [h4] at h3
    cases hs : stmt us k with
    | nil => rw [hs] at h3; cases h3
    | cons a l =>
      cases l with
      | nil => rw [hs] at h3; simp at h3
      | cons b l =>
        rw [hs] at h3
        simp only [List.map_cons, List.cons.injEq, List.map_eq_nil_iff] at h3
        obtain ⟨h3, -, rfl⟩ := h3
        exact ⟨a, b, rfl, h3⟩
  have hlen : M.length = n + 1 := by simp [M]
  obtain ⟨nodes, h4, h5, h6⟩ := gtfos_read M (by intro h; rw [h] at hlen; cases hlen) hst
  refine ⟨text, us, nodes, h1, ?_, ?_, by rw [← hlen]; exact h6, by rw [← hlen]; exact h5⟩
  · rw [parse_eq, ← parseStmts_ok_iff.2 ⟨_, h4⟩]
    apply parseStmts_congr
    intro k
    rw [hM]
    cases hm : M with
    | nil => rw [hm] at hlen; cases hlen
    | cons a l => rfl
  · rw [nonEmpty_congr hM, ← hlen]
    exact List.countP_eq_length.2 fun st hs => by
      obtain ⟨a, b, rfl, -⟩ := hst st hs
      rfl

/-- **C85** When there are no errors, the statements that are read are exactly accounted for: one for every node, one
more for every loop, function, conditional and switch, and one for every part of a conditional or a switch; all
others are empty. -/
theorem C85_exact {tokens : List Token} {nodes : Block} (h : parse tokens = .ok nodes) (he : errorFreeBlock nodes) :
    ∃ n, 0 < n ∧ stmt tokens n = [] ∧
      nonEmpty ((List.range n).map (stmt tokens)) = ((allNodes nodes).map Node.ownStatements).sum := by
  obtain ⟨L, hL⟩ := (C38_error_free_iff tokens nodes).1 ⟨h, he⟩
  exact ⟨L.length, hL.1.length_pos, hL.2.2, by rw [← derived_range hL]; exact hL.1.own⟩

-- `O RLY?`, `YA RLY`, `GTFO`, `NO WAI`, `GTFO`, `OIC` and `KTHXBYE`: seven statements, and four nodes
set_option maxRecDepth 8000 in
example : ∃ tokens nodes, tokenize chars!"O RLY?,YA RLY,GTFO,NO WAI,GTFO,OIC,KTHXBYE" = .ok (.ok tokens) ∧
    parse tokens = .ok nodes ∧ errorFreeBlock nodes ∧ nonEmpty (split tokens).all = 7 ∧
    (allNodes nodes).map Node.ownStatements = [4, 1, 1, 1] := by
  obtain ⟨tokens, h⟩ : ∃ ts, tokenize chars!"O RLY?,YA RLY,GTFO,NO WAI,GTFO,OIC,KTHXBYE" = .ok (.ok ts) := ⟨_, rfl⟩
  refine ⟨tokens, ?_⟩
  cases h
  refine ⟨_, rfl, rfl, ?_, ?_, ?_⟩
  · simp [errorFreeBlock, Node.ErrorFree, errorFreeMebbes, errorFreeYaRly, errorFreeNoWai]
  · decide +kernel
  · decide +kernel

end Lol
