import Verif.Lexer.RenderLemmas
import Verif.Props.ParserCompose
import Verif.Props.ParserIterator

/-! # Properties of `tokenize` and `tokenize_and_parse`: every program can be written down (C57) -/

namespace Lol

/-! ## C57 -/

/-- **C57** A text that writes token types down, line by line, is tokenized to tokens of these types, those of line
`i` (from 0) on line `1 + i`. -/
theorem C57_tokenize {lines : List (List TokenType)} {text : Str} (h : WritesLines lines text) :
    ∃ tss : List (List Token), tokenize text = .ok (.ok tss.flatten) ∧ tss.map (List.map (·.tokenType)) = lines ∧
      ∀ (i : Nat) (ts : List Token), tss[i]? = some ts → ∀ t ∈ ts, t.range.start.line = 1 + i :=
  h.tokenize

example : WritesLines [[.keyword .SUM_OF], [], [.value .noob]] chars!"SUM OF\t\n\nNOOB\t\n" :=
  .cons (.cons (blanks := []) (.keyword .SUM_OF (by decide)) (by decide) .nil) (.cons .nil
    (.cons (.cons (blanks := []) .noob (by decide) .nil) .nil))

/-- **C57** Every list of lines of writable token types has such a text. -/
theorem C57_text {lines : List (List TokenType)} (h : ∀ tys ∈ lines, WritableLine tys) :
    ∃ text, WritesLines lines text := exists_writesLines h

-- a line with a comment, and an empty line
example : ∃ text, WritesLines [[.keyword .SUM_OF, .identifier chars!"xA", .commentSingleLine chars!" c"], []] text ∧
    text = chars!"SUM OF\txA\t  BTW c\n\n" := by
  have h : ∀ k ∈ Keyword.all, ¬ k.spelling <+: chars!"xA" := by decide +kernel
  exact ⟨_, .cons (.cons (blanks := []) (.keyword .SUM_OF (by decide)) (by decide)
    (.cons (blanks := chars!"  ") (.identifier chars!"xA" (by decide) (by decide) fun k => h k k.mem_all) (by decide)
      (.comment chars!" c" (by decide)))) (.cons .nil .nil), rfl⟩

private theorem writable_keyword {k : Keyword} (h : k ∉ hiddenKeywords) : Writable (.keyword k) := h

private theorem writable_int {n : Int} (h : InI32 n) : Writable (.value (.number (.int n))) := h

private theorem writable_comment {s : Str} (h : '\n' ∉ s) : WritableLine [.commentSingleLine s] := h

example : ∀ tys ∈ [[TokenType.keyword .SUM_OF, .exclamationMark, .commentSingleLine chars!" c"], []],
    WritableLine tys := by
  intro tys h
  simp only [List.mem_cons, List.not_mem_nil, or_false] at h
  rcases h with rfl | rfl
  · exact ⟨writable_keyword (by decide), trivial, writable_comment (by decide)⟩
  · trivial

theorem split_line {l : Int} {ts : List Token} (h : ∀ t ∈ ts, t.range.start.line = l)
    (hs : ∀ t ∈ ts, t.tokenType ≠ .comma ∧ t.tokenType ≠ .ellipsis) : splitFrom ts l = ⟨ts, []⟩ := by
  induction ts with
  | nil => simp [splitFrom]
  | cons t ts ih =>
    have h1 := h t (by simp)
    have h2 := hs t (by simp)
    rw [splitFrom, if_neg h2.1, if_pos h1, if_neg h2.2,
      ih (fun u hu => h u (by simp [hu])) fun u hu => hs u (by simp [hu])]
    rfl

/-- A line of tokens that is one statement: without separators and not empty, or `...,` for an empty statement. -/
inductive StatementLine : List Token → List Token → Prop
  | plain {ts : List Token} : ts ≠ [] → (∀ t ∈ ts, t.tokenType ≠ .comma ∧ t.tokenType ≠ .ellipsis) →
      StatementLine ts ts
  | empty {e c : Token} : e.tokenType = .ellipsis → c.tokenType = .comma → StatementLine [e, c] []

theorem StatementLine.ne_nil {ts st : List Token} (h : StatementLine ts st) : ts ≠ [] := by
  cases h with
  | plain h => exact h
  | empty => simp

inductive StatementLines : Int → List (List Token) → List (List Token) → Prop
  | nil (l) : StatementLines l [] []
  | cons {l ts st tss sts} : StatementLine ts st → (∀ t ∈ ts, t.range.start.line = l) →
      StatementLines (l + 1) tss sts → StatementLines l (ts :: tss) (st :: sts)

theorem StatementLines.firstLine {l : Int} {tss sts : List (List Token)} (h : StatementLines l tss sts) (u : Token)
    (r : List Token) (hu : tss.flatten = u :: r) : u.range.start.line = l := by
  cases h with
  | nil => cases hu
  | @cons l ts st tss sts h1 h2 h3 =>
    cases ts with
    | nil => exact absurd rfl h1.ne_nil
    | cons t ts =>
      cases hu
      exact h2 _ (by simp)

theorem splitGap_lines {l : Int} {tss sts : List (List Token)} (h : StatementLines l tss sts) :
    splitGap tss.flatten = sts := by
  induction h with
  | nil => simp [splitGap]
  | @cons l ts st tss sts h1 h2 h3 ih =>
    rw [List.flatten_cons]
    cases h1 with
    | plain hne hs =>
      have hl : ts.getLast?.map (·.tokenType) ≠ some .ellipsis := by
        intro he
        obtain ⟨t, ht, hty⟩ := Option.map_eq_some_iff.1 he
        exact (hs t (List.mem_of_getLast? ht)).2 hty
      rw [(split_append h3.firstLine ts (fun t ht => by rw [h2 t ht]; omega) hl).2, ih]
      cases ts with
      | nil => exact absurd rfl hne
      | cons t ts =>
        have ht := hs t (by simp)
        rw [splitGap, if_neg ht.1, if_neg ht.2, h2 t (by simp),
          split_line (fun u hu => h2 u (by simp [hu])) fun u hu => hs u (by simp [hu])]
        rfl
    | @empty e c he hc =>
      simp [splitGap, he, splitFrom, hc, Stmts.all, ih]

theorem split_lines {l : Int} {tss sts : List (List Token)} (h : StatementLines l tss sts) (hne : tss ≠ []) :
    (split tss.flatten).all = sts := by
  rw [← splitGap_lines h]
  cases h with
  | nil => exact absurd rfl hne
  | @cons l ts st tss sts h1 h2 h3 =>
    cases h1 with
    | plain hne hs =>
      cases ts with
      | nil => exact absurd rfl hne
      | cons t ts =>
        have ht := hs t (by simp)
        rw [List.flatten_cons, List.cons_append, split, splitFrom, splitGap, firstLine, if_neg ht.1, if_neg ht.2,
          if_pos rfl, if_neg ht.2, if_neg ht.1]
    | @empty e c he hc =>
      simp [split, splitGap, he, splitFrom, hc, Stmts.all, firstLine]

/-- The line for a statement: `...,` stands for the empty one. -/
def lineOfStmt : List TokenType → List TokenType
  | [] => [.ellipsis, .comma]
  | ty :: tys => ty :: tys

/-- A token without its position. -/
def Token.unplaced (t : Token) : Token := ⟨t.tokenType, ⟨⟨0, 0, 0, 0⟩, ⟨0, 0, 0, 0⟩⟩⟩

theorem statementLines_of {tss : List (List Token)} {L : List (List TokenType)} {l : Int}
    (h : tss.map (List.map (·.tokenType)) = L.map lineOfStmt)
    (hl : ∀ (i : Nat) (ts : List Token), tss[i]? = some ts → ∀ t ∈ ts, t.range.start.line = l + i)
    (hs : ∀ st ∈ L, ∀ ty ∈ st, ty ≠ .comma ∧ ty ≠ .ellipsis) :
    ∃ sts : List (List Token), StatementLines l tss sts ∧ sts.map (List.map (·.tokenType)) = L := by
  induction tss generalizing l L with
  | nil =>
    cases L with
    | nil => exact ⟨[], .nil _, rfl⟩
    | cons st L => cases h
  | cons ts tss ih =>
    cases L with
    | nil => cases h
    | cons st L =>
      simp only [List.map_cons, List.cons.injEq] at h
      obtain ⟨sts, h1, h2⟩ := ih (l := l + 1) h.2 (fun i us hi t ht => by
        have := hl (i + 1) us (by simpa using hi) t ht
        rw [this]
        omega) fun st hst => hs st (by simp [hst])
      have hline : ∀ t ∈ ts, t.range.start.line = l := fun t ht => by simpa using hl 0 ts (by simp) t ht
      have hone : ∃ st', StatementLine ts st' ∧ st'.map (·.tokenType) = st := by
        cases st with
        | nil =>
          have h' := h.1
          simp only [lineOfStmt, List.map_eq_cons_iff, List.map_eq_nil_iff] at h'
          obtain ⟨e, _, rfl, he, c, _, rfl, hc, rfl⟩ := h'
          exact ⟨[], .empty he hc, rfl⟩
        | cons ty st =>
          have h' : ts.map (·.tokenType) = ty :: st := h.1
          refine ⟨ts, .plain (by rintro rfl; simp at h') fun u hu => ?_, h'⟩
          have hm : u.tokenType ∈ ty :: st := h' ▸ List.mem_map_of_mem hu
          exact hs _ (by simp) _ hm
      obtain ⟨st', g1, g2⟩ := hone
      exact ⟨st' :: sts, .cons g1 hline h1, by simp [g2, h2]⟩

/-- **C57** Every list of statements, given by token types that can be written down and are no separators, is the
list of statements of a source text. -/
theorem C57_statements {L : List (List TokenType)} (h : ∀ st ∈ L, WritableLine st)
    (hs : ∀ st ∈ L, ∀ ty ∈ st, ty ≠ .comma ∧ ty ≠ .ellipsis) :
    ∃ text us, tokenize text = .ok (.ok us) ∧ ∀ k, (stmt us k).map (·.tokenType) = L.getD k [] := by
  obtain ⟨text, h1⟩ := C57_text (lines := L.map lineOfStmt) (fun tys ht => by
    obtain ⟨st, hst, rfl⟩ := List.mem_map.1 ht
    cases st with
    | nil => exact ⟨trivial, trivial, trivial⟩
    | cons ty st => exact h _ hst)
  obtain ⟨tss, h2, h3, h4⟩ := C57_tokenize h1
  obtain ⟨sts, h5, h6⟩ := statementLines_of h3 h4 hs
  refine ⟨text, _, h2, fun k => ?_⟩
  cases tss with
  | nil =>
    cases h5
    subst h6
    cases k <;> rfl
  | cons ts tss =>
    rw [stmt, split_lines h5 (by simp), ← h6, List.getD_eq_getElem?_getD, List.getD_eq_getElem?_getD,
      List.getElem?_map]
    cases sts[k]? <;> rfl

private theorem no_keyword {name : Str} (h : ∀ k ∈ Keyword.all, ¬ k.spelling <+: name) (k : Keyword) :
    ¬ k.spelling <+: name := h k k.mem_all

private theorem body_of_plain {s : Str} (h : '"' ∉ s) (h' : ':' ∉ s) : StringBody s :=
  ⟨fun u v he => absurd (by simp [he]) h, fun u he => h' (by simp [he])⟩

private theorem no_early_end {s : Str} (h : 'T' ∉ s) (u v : Str)
    (he : s ++ chars!"TLDR" = u ++ (chars!"TLDR" ++ v)) : s.length ≤ u.length := by
  rcases Nat.lt_or_ge u.length s.length with hlt | hge
  · have := congrArg (·[u.length]?) he
    simp only [List.getElem?_append_right (Nat.le_refl _), List.getElem?_append_left hlt] at this
    simp at this
    exact absurd (List.mem_of_getElem? this) h
  · exact hge

private def someStatements : List (List TokenType) :=
  [[.keyword .VISIBLE, .value (.string chars!"a b"), .value (.number (.int (-20))), .commentSingleLine chars!" x"], [],
    [.symbol ['?'], .commentMultiLine chars!" x\n ", .identifier chars!"xA", .value (.boolean true)]]

private theorem someStatements_writable : ∀ st ∈ someStatements, WritableLine st := by
  intro st hst
  simp only [someStatements, List.mem_cons, List.not_mem_nil, or_false] at hst
  rcases hst with rfl | rfl | rfl
  · exact ⟨writable_keyword (by decide), ⟨body_of_plain (by decide) (by decide), by decide⟩,
      writable_int (by decide), writable_comment (by decide)⟩
  · trivial
  · exact ⟨⟨'?', rfl, by decide, by decide, by decide, by decide, by decide, by decide, by decide⟩,
      no_early_end (by decide), ⟨by decide, by decide, no_keyword (by decide +kernel)⟩, trivial, trivial⟩

-- three statements, the second one empty
example : (∀ st ∈ someStatements, WritableLine st) ∧
    ∀ st ∈ someStatements, ∀ ty ∈ st, ty ≠ .comma ∧ ty ≠ .ellipsis := ⟨someStatements_writable, by decide⟩

/-- **C57** Whatever the statements of a token list, as long as their token types can be written down, there is a
source text with the same statements, up to positions; so its tree is the same up to positions, and `parse` panics on
both or on none. -/
theorem C57_program {ts : List Token} (h : ∀ k, WritableLine ((stmt ts k).map (·.tokenType))) :
    ∃ text us, tokenize text = .ok (.ok us) ∧
      (∀ k, (stmt us k).map (·.tokenType) = (stmt ts k).map (·.tokenType)) ∧
      mapOutcome Token.unplaced (parse us) = mapOutcome Token.unplaced (parse ts) := by
  have hk : ∀ st ∈ (split ts).all, ∃ k, stmt ts k = st := by
    intro st hst
    obtain ⟨k, hk, rfl⟩ := List.getElem_of_mem hst
    exact ⟨k, by rw [stmt, List.getD_eq_getElem?_getD, List.getElem?_eq_getElem hk]; rfl⟩
  obtain ⟨text, us, h1, h2⟩ := C57_statements (L := (split ts).all.map (List.map (·.tokenType)))
    (fun tys ht => by
      obtain ⟨st, hst, rfl⟩ := List.mem_map.1 ht
      obtain ⟨k, rfl⟩ := hk st hst
      exact h k)
    (fun tys ht ty hty => by
      obtain ⟨st, hst, rfl⟩ := List.mem_map.1 ht
      obtain ⟨k, rfl⟩ := hk st hst
      obtain ⟨t, ht, rfl⟩ := List.mem_map.1 hty
      exact C24_no_separators ts k t ht)
  have h3 : ∀ k, (stmt us k).map (·.tokenType) = (stmt ts k).map (·.tokenType) := by
    intro k
    rw [h2 k, stmt, List.getD_eq_getElem?_getD, List.getD_eq_getElem?_getD, List.getElem?_map]
    cases (split ts).all[k]? <;> rfl
  refine ⟨text, us, h1, h3, C55_same (f := Token.unplaced) (fun _ => rfl) fun k => ?_⟩
  have hm : ∀ vs : List Token, vs.map Token.unplaced = (vs.map (·.tokenType)).map fun ty =>
      (⟨ty, ⟨⟨0, 0, 0, 0⟩, ⟨0, 0, 0, 0⟩⟩⟩ : Token) := by
    intro vs
    simp [Token.unplaced]
  rw [hm, hm, h3 k]

/-- **C57** So every tree that `parse` makes from tokens that can be written down, with or without errors, is up to
positions the tree of a source text. -/
theorem C57_trees {ts : List Token} {nodes : Block} (h : ∀ k, WritableLine ((stmt ts k).map (·.tokenType)))
    (hp : parse ts = .ok nodes) : ∃ text nodes', tokenizeAndParse text = .ok (.ok nodes') ∧
      mapBlock Token.unplaced nodes' = mapBlock Token.unplaced nodes := by
  obtain ⟨text, us, h1, -, h3⟩ := C57_program h
  rw [hp] at h3
  cases hu : parse us with
  | ok nodes' =>
    rw [hu] at h3
    refine ⟨text, nodes', ?_, Out.ok.inj h3⟩
    unfold tokenizeAndParse
    rw [h1]
    show Out.bind (parse us) _ = _
    rw [hu]
    rfl
  | panic p => rw [hu] at h3; cases h3
  | outOfFuel => rw [hu] at h3; cases h3

private def somePlaced : List Token :=
  [onLine 7 (.keyword .O_RLY), onLine 7 (.symbol ['?']), onLine 9 (.keyword .KTHXBYE), onLine 9 (.exclamationMark)]

-- `O RLY?` without an end, with a token too many on the next line
example : (∀ k, WritableLine ((stmt somePlaced k).map (·.tokenType))) ∧ ∃ nodes, parse somePlaced = .ok nodes := by
  refine ⟨fun k => ?_, _, rfl⟩
  have h : (split somePlaced).all = [somePlaced.take 2, somePlaced.drop 2] := by decide +kernel
  rw [stmt, h]
  match k with
  | 0 =>
    exact ⟨writable_keyword (k := .O_RLY) (by decide),
      ⟨'?', rfl, by decide, by decide, by decide, by decide, by decide, by decide, by decide⟩, trivial⟩
  | 1 => exact ⟨writable_keyword (k := .KTHXBYE) (by decide), trivial, trivial⟩
  | k + 2 => trivial

end Lol
