import Verif.Parser.AppendLemmas
import Verif.Props.Bodies

/-! # Lines added at the end of a program (C79) -/

namespace Lol

/-- `ts'` has the statements of `ts`, and then any others. -/
def StartsWith (ts' ts : List Token) : Prop :=
  ∃ n, (∀ k, n ≤ k → stmt ts k = []) ∧ ∀ k, k < n → stmt ts' k = stmt ts k

/-- `tree'` is `tree` with nodes added at the end; when the last node of `tree` is the error of a construct that is not
closed, other nodes may take its place. -/
def Extends (tree tree' : Block) : Prop :=
  (∃ rest, tree' = tree ++ rest) ∨
  ∃ pre x rest, tree = pre ++ [.astError x] ∧ x.Unclosed ∧ tree' = pre ++ rest

theorem getD_range (ts : List Token) (n k : Nat) (h : k < n) : ((List.range n).map (stmt ts)).getD k [] = stmt ts k := by
  simp [List.getD_eq_getElem?_getD, h]

theorem getD_range_none (ts : List Token) (n k : Nat) (h : ¬ k < n) : ((List.range n).map (stmt ts)).getD k [] = [] := by
  simp [List.getD_eq_getElem?_getD, h]

theorem Stmts.all_of_getD (L : List (List Token)) (k : Nat) : (Stmts.of L).all.getD k [] = L.getD k [] := by
  cases L with
  | nil => cases k <;> rfl
  | cons c l => rfl

theorem StartsWith.stmts {ts' ts : List Token} (h : StartsWith ts' ts) :
    ∃ L e, parse ts = parseStmts (.of L) ∧ parse ts' = parseStmts (.of (L ++ e)) := by
  obtain ⟨n, h1, h2⟩ := h
  refine ⟨(List.range n).map (stmt ts), (List.range (split ts').all.length).map fun k => stmt ts' (n + k), ?_, ?_⟩
  · rw [parse_eq]
    apply parseStmts_congr
    intro k
    rw [Stmts.all_of_getD]
    by_cases hk : k < n
    · rw [getD_range _ _ _ hk]; rfl
    · rw [getD_range_none _ _ _ hk]; exact h1 k (by omega)
  · rw [parse_eq]
    apply parseStmts_congr
    intro k
    rw [Stmts.all_of_getD]
    by_cases hk : k < n
    · rw [List.getD_eq_getElem?_getD (l := _ ++ _), List.getElem?_append_left (by simpa using hk), ← List.getD_eq_getElem?_getD,
        getD_range _ _ _ hk]
      exact h2 k hk
    · rw [List.getD_eq_getElem?_getD (l := _ ++ _), List.getElem?_append_right (by simp; omega)]
      obtain ⟨j, rfl⟩ : ∃ j, k = n + j := ⟨k - n, by omega⟩
      simp only [List.length_map, List.length_range, Nat.add_sub_cancel_left]
      by_cases hj : j < (split ts').all.length
      · simp [hj, stmt]
      · rw [List.getElem?_eq_none (by simp; omega), List.getD_eq_getElem?_getD, List.getElem?_eq_none (by omega)]

/-! ## C79 -/

/-- **C79** Statements that are added at the end of a program leave its tree as it is and add nodes at its end, unless
the last node is the error of a construct that is not closed: then the nodes before it stay. -/
theorem C79_tree {ts ts' : List Token} {tree tree' : Block} (hs : StartsWith ts' ts) (h : parse ts = .ok tree)
    (h' : parse ts' = .ok tree') : Extends tree tree' := by
  obtain ⟨L, e, h1, h2⟩ := hs.stmts
  rw [h1] at h
  rw [h2] at h'
  cases L with
  | nil =>
    have : tree = [] := by
      obtain ⟨s', h3⟩ := parseStmts_ok_iff.1 h
      cases h3.at_end
      rfl
    exact .inl ⟨tree', by rw [this]; rfl⟩
  | cons c l =>
    obtain ⟨s1, h3⟩ := parseStmts_ok_iff.1 h
    obtain ⟨s2, h4⟩ := parseStmts_ok_iff.1 h'
    exact h3.append e _ _ rfl _ _ h4

/-- For the examples. -/
theorem startsWith_of {ts' ts : List Token} (h : (split ts).all <+: (split ts').all) : StartsWith ts' ts := by
  obtain ⟨e, h⟩ := h
  refine ⟨(split ts).all.length, fun k hk => ?_, fun k hk => ?_⟩
  · rw [stmt, List.getD_eq_getElem?_getD, List.getElem?_eq_none hk]; rfl
  · rw [stmt, ← h, List.getD_eq_getElem?_getD, List.getElem?_append_left hk, ← List.getD_eq_getElem?_getD]; rfl

-- the first statement has an error, which stays
example : ∃ ts tree tree', tokenize chars!"VISIBLE AN\nGTFO\nx R y" = .ok (.ok ts) ∧ StartsWith ts (ts.take 3) ∧
    parse (ts.take 3) = .ok tree ∧ parse ts = .ok tree' ∧ tree.length = 2 ∧ tree'.length = 3 := by
  obtain ⟨ts, h⟩ : ∃ ts, tokenize chars!"VISIBLE AN\nGTFO\nx R y" = .ok (.ok ts) := ⟨_, rfl⟩
  refine ⟨ts, ?_⟩
  rw [h]
  cases h
  exact ⟨_, _, rfl, startsWith_of (by decide +kernel), rfl, rfl, rfl, rfl⟩

-- the exception: a loop that is closed by the statement that is added
example : ∃ ts t tree', tokenize chars!"GTFO\nIM IN YR l\nGTFO\nIM OUTTA YR l" = .ok (.ok ts) ∧
    StartsWith ts (ts.take 4) ∧ parse (ts.take 4) = .ok [.gtfo t, .astError (.imInYr (.missingImOuttaYr (ts.getD 1 t)))] ∧
    parse ts = .ok tree' ∧ (match tree' with
      | [.gtfo _, .imInYr ..] => True
      | _ => False) := by
  obtain ⟨ts, h⟩ : ∃ ts, tokenize chars!"GTFO\nIM IN YR l\nGTFO\nIM OUTTA YR l" = .ok (.ok ts) := ⟨_, rfl⟩
  refine ⟨ts, ?_⟩
  rw [h]
  cases h
  exact ⟨_, _, rfl, startsWith_of (by decide +kernel), rfl, rfl, trivial⟩

/-- **C79** A panic stays, whatever is added at the end. -/
theorem C79_panic {ts ts' : List Token} {p : PanicSite} (hs : StartsWith ts' ts) (h : parse ts = .panic p) :
    parse ts' = .panic p := by
  obtain ⟨L, e, h1, h2⟩ := hs.stmts
  rw [h1] at h
  rw [h2]
  cases L with
  | nil => cases (parseStmts_panic_iff.1 h).at_end
  | cons c l =>
    apply parseStmts_panic_iff.2
    rcases (parseStmts_panic_iff.1 h).ext e with h3 | ⟨_, h3⟩ | ⟨_, h3, -⟩
    · exact h3
    · cases h3
    · cases h3

-- a cast in a loop that is not closed
example : ∃ ts, tokenize chars!"IM IN YR l\nVISIBLE 1 MAEK a\nIM OUTTA YR l" = .ok (.ok ts) ∧
    StartsWith ts (ts.take 6) ∧ parse (ts.take 6) = .panic .todoMaek ∧ parse ts = .panic .todoMaek := by
  obtain ⟨ts, h⟩ : ∃ ts, tokenize chars!"IM IN YR l\nVISIBLE 1 MAEK a\nIM OUTTA YR l" = .ok (.ok ts) := ⟨_, rfl⟩
  refine ⟨ts, ?_⟩
  rw [h]
  cases h
  exact ⟨rfl, startsWith_of (by decide +kernel), rfl, rfl⟩

/-- The tokens of a text and of lines after it. -/
theorem LinesOf.startsWith {a b : Str} {ta ts : List Token} (ha : LinesOf a ta)
    (h : tokenize (a ++ '\n' :: b) = .ok (.ok ts)) : StartsWith ts ta := by
  have h4 := C54_lines (b := b) ha.1 ha.2.1
  rw [h] at h4
  cases hb : tokenize b with
  | ok r =>
    cases r with
    | ok tb =>
      rw [hb] at h4
      have hlt := ha.before hb
      simp only [joinLines] at h4
      generalize (lineColumn ta (a ++ ['\n']) 0 1 1).1 - 1 = dl at *
      cases h4
      cases ta with
      | nil =>
        refine ⟨0, fun k _ => ?_, fun k hk => absurd hk (by omega)⟩
        cases k <;> rfl
      | cons t ta =>
        have hline : ∀ t : Token, (Token.shift 1 dl 0 (utf8Len a + 1) (a.length + 1) t).range.start.line =
          t.range.start.line + dl := fun _ => rfl
        generalize Token.shift 1 dl 0 (utf8Len a + 1) (a.length + 1) = f at *
        have e1 : (split (t :: ta ++ tb.map f)).all = (split (t :: ta)).all ++ splitGap (tb.map f) := by
          cases tb with
          | nil => simp [splitGap]
          | cons u us =>
            have := (split_append (lu := (f u).range.start.line) (us := (u :: us).map f)
              (by rintro v r hv; cases hv; rfl) (t :: ta)
              (fun t ht => by have := hlt t ht u (by simp); rw [hline]; omega) ha.2.2).1 t.range.start.line (by simp)
            rw [split, List.cons_append, firstLine, ← List.cons_append, this]
            rfl
        refine ⟨(split (t :: ta)).all.length, fun k hk => ?_, fun k hk => ?_⟩
        · rw [stmt, List.getD_eq_getElem?_getD, List.getElem?_eq_none hk]; rfl
        · rw [stmt, e1, List.getD_eq_getElem?_getD, List.getElem?_append_left hk, ← List.getD_eq_getElem?_getD]; rfl
    | error e => rw [hb] at h4; cases h4
  | panic p => rw [hb] at h4; cases h4
  | outOfFuel => rw [hb] at h4; cases h4

/-- **C79** Typing at the end of a file: lines that are added after the text `a` leave its tree as it is and add nodes
at its end, unless the last node is the error of a construct that is not closed: then the nodes before it stay. -/
theorem C79_text {a b : Str} {ta : List Token} {tree tree' : Block} (ha : LinesOf a ta)
    (h : tokenizeAndParse (a ++ ['\n']) = .ok (.ok tree))
    (h' : tokenizeAndParse (a ++ '\n' :: b) = .ok (.ok tree')) : Extends tree tree' := by
  cases ht : tokenize (a ++ '\n' :: b) with
  | ok r =>
    cases r with
    | ok ts =>
      exact C79_tree (ha.startsWith ht) (parse_of_tokenizeAndParse ha.1 h) (parse_of_tokenizeAndParse ht h')
    | error e => unfold tokenizeAndParse at h'; rw [ht] at h'; cases h'
  | panic p => unfold tokenizeAndParse at h'; rw [ht] at h'; cases h'
  | outOfFuel => unfold tokenizeAndParse at h'; rw [ht] at h'; cases h'

-- A conditional that is not closed: the text that is added closes it, and the node before it stays.
example : (∃ ta, LinesOf chars!"GTFO\nO RLY?\nYA RLY" ta) ∧
    (match tokenizeAndParse (chars!"GTFO\nO RLY?\nYA RLY" ++ ['\n']) with
      | .ok (.ok [.gtfo _, .astError (.missingBlockClosingToken _)]) => True
      | _ => False) ∧
    (match tokenizeAndParse (chars!"GTFO\nO RLY?\nYA RLY" ++ '\n' :: chars!"VISIBLE x\nOIC\nx R y") with
      | .ok (.ok [.gtfo _, .oRly .., .variableAssignment _]) => True
      | _ => False) := by
  refine ⟨⟨_, rfl, ?_⟩, trivial, trivial⟩
  decide +kernel

/-- **C79** A text on which `parse` panics stays such a text, whatever lines with proper tokens are added. -/
theorem C79_text_panic {a b : Str} {ta tb : List Token} {p : PanicSite} (ha : LinesOf a ta)
    (h : tokenizeAndParse (a ++ ['\n']) = .panic p) (hb : tokenize b = .ok (.ok tb)) :
    tokenizeAndParse (a ++ '\n' :: b) = .panic p := by
  obtain ⟨ts, ht, -⟩ := ha.append hb
  have hp : parse ta = .panic p := by
    unfold tokenizeAndParse at h
    rw [ha.1] at h
    have h : Out.bind (parse ta) (fun b => Out.ok (Except.ok b)) = .panic p := h
    cases hq : parse ta with
    | ok y => rw [hq] at h; cases h
    | panic q => rw [hq] at h; cases h; rfl
    | outOfFuel => rw [hq] at h; cases h
  unfold tokenizeAndParse
  rw [ht]
  show Out.bind (parse ts) _ = _
  rw [C79_panic (ha.startsWith ht) hp]
  rfl

example : (∃ ta, LinesOf chars!"IM IN YR l\nVISIBLE 1 MAEK a" ta) ∧
    tokenizeAndParse (chars!"IM IN YR l\nVISIBLE 1 MAEK a" ++ ['\n']) = .panic .todoMaek ∧
    ∃ tb, tokenize chars!"IM OUTTA YR l" = .ok (.ok tb) := by
  refine ⟨⟨_, rfl, ?_⟩, rfl, _, rfl⟩
  decide +kernel

end Lol
