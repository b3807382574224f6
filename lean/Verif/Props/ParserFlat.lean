import Verif.Parser.FlatTotal
import Verif.Props.ParserProgram

/-!
# Properties of `parse` on statements that do not open a block (C39)
-/

namespace Lol

/-- A statement with a first token that does not open a block and is not `HAI`. -/
def Flat (st : List Token) : Prop := ∃ t r, st = t :: r ∧ ∀ k ∈ blockKeywords, ¬ t.Is k

/-- The token list `one` consists of the statement `st` alone. -/
def Alone (one st : List Token) : Prop :=
  stmt one 0 = st ∧ ∀ k, stmt one (k + 1) = []

/-- The trees of several token lists one after the other. -/
def parseEach : List (List Token) → Out Block
  | [] => .ok []
  | one :: src => (parse one).bind fun a => (parseEach src).bind fun b => .ok (a ++ b)

/-! ## C39: errors stay local -/

theorem parse_alone {one st : List Token} (h : Alone one st) : parse one = parseStmts ⟨st, []⟩ := by
  rw [parse_eq]
  apply parseStmts_congr
  intro k
  have hs : ∀ k, stmt one k = (split one).all.getD k [] :=
    fun _ => rfl
  cases k with
  | zero => rw [← hs, h.1]; rfl
  | succ k => rw [← hs, h.2]; simp [Stmts.all]

theorem alone_of_split {one st : List Token} (h : split one = ⟨st, []⟩) : Alone one st := by
  unfold Alone
  simp only [stmt, h]
  exact ⟨rfl, fun k => by simp [Stmts.all]⟩

theorem parseRest_flat {sts : List (List Token)} (h : ∀ st ∈ sts, Flat st) :
    parseRest sts = parseStmts (.of sts) := by
  unfold parseRest
  split
  · rename_i h'
    cases sts with
    | nil => rfl
    | cons st sts =>
      obtain ⟨t, r, rfl, -⟩ := h st List.mem_cons_self
      cases h'
  · rfl

/-- The trees of single statements one after the other. -/
def parseEachStmt : List (List Token) → Out Block
  | [] => .ok []
  | st :: sts => (parseStmts ⟨st, []⟩).bind fun a => (parseEachStmt sts).bind fun b => .ok (a ++ b)

theorem parseStmts_each {sts : List (List Token)} (h : ∀ st ∈ sts, Flat st) :
    parseStmts (.of sts) = parseEachStmt sts := by
  induction sts with
  | nil => rfl
  | cons st sts ih =>
    obtain ⟨t, r, rfl, ht⟩ := h st List.mem_cons_self
    have h' : ∀ st ∈ sts, Flat st := fun st hst => h st (List.mem_cons_of_mem _ hst)
    rw [Stmts.of_cons, parseStmts_flat ht, parseRest_flat h', ih h']
    rfl

theorem parseEach_eq {src sts : List (List Token)} (hl : src.length = sts.length)
    (h : ∀ i, i < src.length → Alone (src.getD i []) (sts.getD i [])) : parseEach src = parseEachStmt sts := by
  induction src generalizing sts with
  | nil =>
    cases sts with
    | nil => rfl
    | cons => cases hl
  | cons one src ih =>
    cases sts with
    | nil => cases hl
    | cons st sts =>
      have h0 := h 0 (by simp)
      have h1 := ih (sts := sts) (by simpa using hl) fun i hi => by simpa using h (i + 1) (by simpa using hi)
      rw [parseEach, parseEachStmt, h1, parse_alone (by simpa using h0)]

/-- **C39** When no statement opens a block, the tree is what the statements give when each is parsed alone, in
order (and `parse` panics iff it panics on one of them). -/
theorem C39_flat (tokens : List Token) (src : List (List Token))
    (h1 : ∀ i, i < src.length → Flat (stmt tokens i))
    (h2 : ∀ i, src.length ≤ i → stmt tokens i = [])
    (h3 : ∀ i, i < src.length → Alone (src.getD i []) (stmt tokens i)) :
    parse tokens = parseEach src := by
  let sts := (List.range src.length).map (stmt tokens)
  have hget : ∀ i, sts.getD i [] = stmt tokens i := by
    intro i
    by_cases hi : i < src.length
    · simp [sts, List.getD_eq_getElem?_getD, hi]
    · rw [h2 i (by omega)]
      simp [sts, List.getD_eq_getElem?_getD, hi]
  rw [parseEach_eq (sts := sts) (by simp [sts]) fun i hi => by rw [hget]; exact h3 i hi]
  rw [← parseStmts_each]
  · rw [parse_eq]
    apply parseStmts_congr
    intro k
    show stmt tokens _ = _
    rw [← hget]
    cases sts with
    | nil => cases k <;> simp [Stmts.of, Stmts.all]
    | cons st sts => rw [Stmts.of_cons]; rfl
  · intro st hst
    obtain ⟨i, hi, rfl⟩ := List.mem_map.1 hst
    exact h1 i (List.mem_range.1 hi)

-- Three statements, the second of them with an error.
example : ∃ tokens a b c, tokenize chars!"VISIBLE x\nGIMMEH VISIBLE\nI HAS A y" = .ok (.ok tokens) ∧
    tokenize chars!"VISIBLE x" = .ok (.ok a) ∧ b = (tokens.drop 2).take 2 ∧ c = tokens.drop 4 ∧
    (∀ i, i < 3 → Flat (stmt tokens i)) ∧
    Alone b (stmt tokens 1) ∧
    (match parseEach [a, b, c] with
      | .ok [.visible _, .astError (.unexpectedToken _), .iHasA _] => True
      | _ => False) := by
  refine ⟨_, _, _, _, rfl, rfl, rfl, rfl, ?_, ?_, ?_⟩
  · intro i hi
    match i, hi with
    | 0, _ | 1, _ | 2, _ => exact ⟨_, _, rfl, by decide +kernel⟩
  · exact alone_of_split (by decide +kernel)
  · exact trivial

/-- The tokens of a statement joined by ellipses. -/
def joinEllipsis (st : List Token) : List Token := st.flatMap fun t => [t, ⟨.ellipsis, t.range⟩]

theorem splitFrom_join {st : List Token} (h : ∀ t ∈ st, t.isSeparator = false) (d : Int) :
    splitFrom (joinEllipsis st) (firstLine (joinEllipsis st) d) = ⟨st, []⟩ := by
  induction st generalizing d with
  | nil => rfl
  | cons t st ih =>
    have ht := h t List.mem_cons_self
    simp only [Token.isSeparator, decide_eq_false_iff_not, not_or] at ht
    have ih := ih (fun t ht => h t (List.mem_cons_of_mem _ ht)) t.range.start.line
    have e : joinEllipsis (t :: st) = t :: ⟨.ellipsis, t.range⟩ :: joinEllipsis st := rfl
    have hl : firstLine (joinEllipsis (t :: st)) d = t.range.start.line := rfl
    rw [hl, e, splitFrom]
    simp only [ht.1, ht.2, if_false, if_true, splitFrom, reduceCtorEq, ih]
    rfl

theorem statement_content {tokens : List Token} {k : Nat} :
    ∀ t ∈ stmt tokens k, t ∈ content tokens := by
  intro t ht
  unfold stmt at ht
  rw [← split_tokens]
  have hk : k < (split tokens).all.length := by
    apply Classical.byContradiction
    intro hk
    rw [List.getD_eq_getElem?_getD, List.getElem?_eq_none (by omega)] at ht
    cases ht
  have : (split tokens).all.getD k [] ∈ (split tokens).all := by
    simp [List.getD_eq_getElem?_getD, hk]
  have := List.mem_flatten.2 ⟨_, this, ht⟩
  simpa [Stmts.tokens, Stmts.all] using this

/-- **C39** Every statement can be parsed alone: some token list consists of it alone (its tokens joined by `...`). -/
theorem C39_alone (tokens : List Token) (k : Nat) :
    ∃ one, Alone one (stmt tokens k) := by
  refine ⟨joinEllipsis (stmt tokens k), ?_⟩
  have h : ∀ t ∈ stmt tokens k, t.isSeparator = false := by
    intro t ht
    simpa [content] using (List.mem_filter.1 (statement_content t ht)).2
  generalize stmt tokens k = st at h
  have key : split (joinEllipsis st) = ⟨st, []⟩ := by
    cases st with
    | nil => rfl
    | cons t st => exact splitFrom_join h 0
  exact alone_of_split key

-- The third statement of a program, alone.
example : ∃ tokens, tokenize chars!"VISIBLE x\nGTFO, SUM OF x...\nAN y" = .ok (.ok tokens) ∧
    (stmt tokens 2).length = 4 := by
  refine ⟨_, rfl, ?_⟩; decide +kernel

theorem parseEachStmt_split {l l' : List (List Token)} {nodes : Block} (h : parseEachStmt (l ++ l') = .ok nodes) :
    ∃ a b, parseEachStmt l = .ok a ∧ parseEachStmt l' = .ok b ∧ nodes = a ++ b := by
  induction l generalizing nodes with
  | nil => exact ⟨[], nodes, rfl, h, rfl⟩
  | cons st l ih =>
    simp only [List.cons_append, parseEachStmt] at h
    cases h1 : parseStmts ⟨st, []⟩ with
    | ok x =>
      rw [h1] at h
      cases h2 : parseEachStmt (l ++ l') with
      | ok y =>
        rw [h2] at h
        obtain ⟨a, b, h3, h4, rfl⟩ := ih h2
        have h : Out.ok (x ++ (a ++ b)) = .ok nodes := h
        cases h
        exact ⟨x ++ a, b, by simp [parseEachStmt, h1, h3, Out.bind], h4, by simp⟩
      | _ => rw [h2] at h; cases h
    | _ => rw [h1] at h; cases h

theorem parse_eachStmt {tokens : List Token} {n : Nat}
    (h1 : ∀ i, i < n → Flat (stmt tokens i))
    (h2 : ∀ i, n ≤ i → stmt tokens i = []) :
    parse tokens = parseEachStmt ((List.range n).map (stmt tokens)) := by
  obtain ⟨one, hone⟩ : ∃ one : Nat → List Token, ∀ k, Alone (one k) (stmt tokens k) :=
    ⟨fun k => (C39_alone tokens k).choose, fun k => (C39_alone tokens k).choose_spec⟩
  have := C39_flat tokens ((List.range n).map one) (by simpa using h1) (by simpa using h2) (by
    intro i hi
    simp only [List.length_map, List.length_range] at hi
    simpa [List.getD_eq_getElem?_getD, hi] using hone i)
  rw [this]
  refine parseEach_eq (by simp) fun i hi => ?_
  simp only [List.length_map, List.length_range] at hi
  simpa [List.getD_eq_getElem?_getD, hi] using hone i

/-- **C39** Changing one statement changes only its own nodes: the nodes of the statements before it (`a`) and after
it (`b`) are the same, and its own are what it gives alone. -/
theorem C39_change (tokens tokens' : List Token) (n i : Nat) (hi : i < n)
    (h1 : ∀ j, j < n → Flat (stmt tokens j))
    (h2 : ∀ j, n ≤ j → stmt tokens j = [])
    (h3 : Flat (stmt tokens' i))
    (h4 : ∀ j, j ≠ i → stmt tokens' j = stmt tokens j)
    {nodes nodes' : Block} (h5 : parse tokens = .ok nodes) (h6 : parse tokens' = .ok nodes') :
    ∃ a x x' b, nodes = a ++ (x ++ b) ∧ nodes' = a ++ (x' ++ b) ∧
      (∀ one, Alone one (stmt tokens i) → parse one = .ok x) ∧
      (∀ one, Alone one (stmt tokens' i) → parse one = .ok x') := by
  rw [parse_eachStmt h1 h2] at h5
  rw [parse_eachStmt (n := n) (fun j hj => by
      by_cases hji : j = i
      · subst hji; exact h3
      · rw [h4 j hji]; exact h1 j hj) (fun j hj => by rw [h4 j (by omega)]; exact h2 j hj)] at h6
  have hr : List.range n = List.range i ++ i :: (List.range (n - i - 1)).map (· + (i + 1)) := by
    apply List.ext_getElem
    · simp; omega
    · intro k hk hk'
      simp only [List.getElem_range, List.getElem_append, List.length_range]
      split
      · simp
      · simp only [List.getElem_cons]
        split
        · omega
        · simp; omega
  rw [hr, List.map_append, List.map_cons] at h5 h6
  obtain ⟨a, xb, h7, h8, rfl⟩ := parseEachStmt_split h5
  obtain ⟨a', xb', h7', h8', rfl⟩ := parseEachStmt_split h6
  obtain ⟨x, b, h9, h10, rfl⟩ := parseEachStmt_split (l := [_]) h8
  obtain ⟨x', b', h9', h10', rfl⟩ := parseEachStmt_split (l := [_]) h8'
  have e1 : (List.range i).map (stmt tokens') =
      (List.range i).map (stmt tokens) := by
    apply List.map_congr_left
    intro j hj
    exact h4 j (by have := List.mem_range.1 hj; omega)
  have e2 : ((List.range (n - i - 1)).map (· + (i + 1))).map (stmt tokens') =
      ((List.range (n - i - 1)).map (· + (i + 1))).map (stmt tokens) := by
    apply List.map_congr_left
    intro j hj
    obtain ⟨k, -, rfl⟩ := List.mem_map.1 hj
    exact h4 _ (by omega)
  rw [e1, h7] at h7'
  rw [e2, h10] at h10'
  cases h7'
  cases h10'
  have single : ∀ {st : List Token} {y : Block}, parseEachStmt [st] = .ok y → ∀ one, Alone one st →
      parse one = .ok y := by
    intro st y h one ho
    rw [parse_alone ho]
    simp only [parseEachStmt] at h
    cases hs : parseStmts ⟨st, []⟩ with
    | ok z =>
      rw [hs] at h
      simpa [Out.bind] using h
    | _ => rw [hs] at h; cases h
  exact ⟨a, x, x', b, rfl, rfl, single h9, single h9'⟩

-- The error in the second statement does not change the nodes of the first and the third.
example : ∃ tokens tokens', tokenize chars!"VISIBLE x\nGIMMEH y\nGTFO" = .ok (.ok tokens) ∧
    tokens' = tokens.take 3 ++ tokens.drop 4 ∧
    (∀ j, j < 3 → Flat (stmt tokens j)) ∧
    Flat (stmt tokens' 1) ∧
    (match parse tokens, parse tokens' with
      | .ok [.visible _, .gimmeh _, .gtfo _], .ok [.visible _, .astError (.missingToken _), .gtfo _] => True
      | _, _ => False) := by
  refine ⟨_, _, rfl, rfl, ?_, ⟨_, _, rfl, by decide +kernel⟩, ?_⟩
  · intro i hi
    match i, hi with
    | 0, _ | 1, _ | 2, _ => exact ⟨_, _, rfl, by decide +kernel⟩
  · exact trivial

/-- **C39** The same when only the first statement is known not to open a block: its nodes are what it gives alone,
and the rest of the tree is the tree of the rest of the program (`tail`). -/
theorem C39_first (tokens one tail : List Token) (h1 : Flat (stmt tokens 0))
    (h2 : Alone one (stmt tokens 0))
    (h3 : ∀ k, stmt tail k = stmt tokens (k + 1))
    (h4 : stmt tokens 1 ≠ []) :
    parse tokens = (parse one).bind fun a => (parse tail).bind fun b => .ok (a ++ b) := by
  rw [parse_alone h2, parse_eq, parse_eq]
  simp only [stmt] at h1 h3 h4 ⊢
  generalize split tokens = s at *
  obtain ⟨cur, later⟩ := s
  have e0 : (Stmts.all ⟨cur, later⟩).getD 0 [] = cur := rfl
  rw [e0] at h1 ⊢
  obtain ⟨t, r, rfl, ht⟩ := h1
  rw [parseStmts_flat ht]
  have e1 : parseRest later = parseStmts (split tail) := by
    unfold parseRest
    cases later with
    | nil => exact absurd rfl h4
    | cons c l =>
      have hc : c ≠ [] := h4
      rw [Stmts.of_cons, if_neg hc]
      exact parseStmts_congr fun k => (h3 k).symm
  rw [e1]

-- A statement before a loop.
example : ∃ tokens, tokenize chars!"VISIBLE\nIM IN YR loop\nGTFO\nIM OUTTA YR loop\nGTFO" = .ok (.ok tokens) ∧
    Flat (stmt tokens 0) ∧
    Alone (tokens.take 1) (stmt tokens 0) ∧
    split (tokens.drop 1) = .of (split tokens).later ∧
    (match parse tokens with | .ok [.visible _, .imInYr .., .gtfo _] => True | _ => False) := by
  refine ⟨_, rfl, ⟨_, _, rfl, by decide +kernel⟩, alone_of_split (by decide +kernel), by decide +kernel, ?_⟩
  exact trivial

end Lol
