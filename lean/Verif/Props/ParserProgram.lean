import Verif.Parser.ParseLemmas
import Verif.Props.LexerTokens

/-!
# Properties of `parse` on all token lists (C20-C23, C38)
-/

namespace Lol

/-! ## C20: termination -/

/-- **C20** `parse` comes back on every token list. -/
theorem C20_terminates (tokens : List Token) : parse tokens ≠ .outOfFuel := by
  have := parseStmts_post (split tokens)
  rw [← parse_eq] at this
  intro h
  rw [h] at this
  exact this

/-- **C20** The recursion bound of the model is not visible: whenever a run with some bound ends, it ends like
`parse`, and every bound from `2 * tokens.length + 4` on is enough. -/
theorem C20_bound_irrelevant (tokens : List Token) (n : Nat) :
    (parseWith n tokens ≠ .outOfFuel → parseWith n tokens = parse tokens) ∧
      (2 * tokens.length + 4 ≤ n → parseWith n tokens = parse tokens) := by
  constructor
  · intro h
    rw [parseWith_eq] at h ⊢
    rw [parse_eq, parseStmts_of rfl h]
  · intro h
    have := split_size tokens
    rw [parseWith_parseStmts (by omega), parse_eq]

-- A bound that is too small is noticed.
example : ∃ tokens, tokenize chars!"VISIBLE SUM OF 1 AN 2\n" = .ok (.ok tokens) ∧
    (match parseWith 2 tokens with | .outOfFuel => True | _ => False) ∧
    (match parse tokens with | .ok [.visible _] => True | _ => False) := by
  refine ⟨_, rfl, ?_, ?_⟩ <;> exact trivial

/-! ## C21: panics -/

/-- **C21** There are two panics: at `MAEK`, and at a statement that starts with a variable access and does not go
on with `R` or `HAS A`. -/
theorem C21_only_two_panics (tokens : List Token) (p : PanicSite) (h : parse tokens = .panic p) :
    (p = .todoMaek ∧ ∃ t ∈ tokens, t.Is .MAEK) ∨
      (p = .unreachableStatement ∧ ∃ k, AccessThen (stmt tokens k)) := by
  have := parseStmts_post (split tokens)
  rw [← parse_eq, h] at this
  have this : PanicCause _ _ _ := this
  unfold PanicCause at this
  split at this
  · obtain ⟨t, h1, h2⟩ := this
    rw [split_tokens] at h1
    exact .inl ⟨rfl, t, (List.mem_filter.1 h1).1, h2⟩
  · obtain ⟨st, h1, h2⟩ := this
    obtain ⟨k, hk, rfl⟩ := List.getElem_of_mem h1
    refine .inr ⟨rfl, k, ?_⟩
    unfold stmt
    simpa [List.getD_eq_getElem?_getD, hk] using h2
  · exact this.elim

example : ∃ tokens tokens', tokenize chars!"VISIBLE MAEK x" = .ok (.ok tokens) ∧ parse tokens = .panic .todoMaek ∧
    tokenize chars!"x y" = .ok (.ok tokens') ∧ parse tokens' = .panic .unreachableStatement :=
  ⟨_, _, rfl, rfl, rfl, rfl⟩

/-- **C21** (partial: `parse` does panic on other inputs, see below) `parse` returns a block if there is no `MAEK`
and every statement that starts with a variable access ends there or goes on with `R` or `HAS A`. -/
theorem C21_returns_partial (tokens : List Token) (h1 : ∀ t ∈ tokens, ¬ t.Is .MAEK)
    (h2 : ∀ k, ¬ AccessThen (stmt tokens k)) : ∃ nodes, parse tokens = .ok nodes := by
  cases h : parse tokens with
  | ok nodes => exact ⟨nodes, rfl⟩
  | outOfFuel => exact absurd h (C20_terminates tokens)
  | panic p =>
    rcases C21_only_two_panics tokens p h with ⟨-, t, h3, h4⟩ | ⟨-, k, h3⟩
    · exact absurd h4 (h1 t h3)
    · exact absurd h3 (h2 k)

example : ∃ tokens, tokenize chars!"x R 1\nGTFO" = .ok (.ok tokens) ∧ (∀ t ∈ tokens, ¬ t.Is .MAEK) ∧
    ∀ k, ¬ AccessThen (stmt tokens k) := by
  refine ⟨_, rfl, by decide +kernel, ?_⟩
  rintro (_ | _ | k) ⟨⟨⟨name, _ | srs⟩, _ | ⟨⟨z, i⟩, slots⟩⟩, t, r, ⟨⟨h1, h2⟩, h3⟩, h4, h5, h6, h7⟩
  · cases h4; exact h5 rfl
  · obtain rfl : _ = z := (List.cons.inj (List.cons.inj h4).2).1
    exact absurd (h3 _ (.head _)).1 (by simp)
  · cases h4; exact absurd (h2 _ rfl) (by simp [Token.Is])
  · obtain rfl : _ = srs := (List.cons.inj h4).1
    exact absurd (h2 _ rfl) (by simp [Token.Is])
  all_goals cases h4

/-- **C21** `parse` panics on source text, at both places. -/
theorem C21_panics :
    (∃ tokens, tokenize chars!"VISIBLE MAEK x NUMBR" = .ok (.ok tokens) ∧
      match parse tokens with | .panic .todoMaek => True | _ => False) ∧
    (∃ tokens, tokenize chars!"x IS NOW A NUMBR" = .ok (.ok tokens) ∧
      match parse tokens with | .panic .unreachableStatement => True | _ => False) := by
  refine ⟨⟨_, rfl, ?_⟩, ⟨_, rfl, ?_⟩⟩ <;> exact trivial

/-- **C21** Whenever the first statement starts with a variable access and goes on with anything but `R` or `HAS A`,
`parse` panics. -/
theorem C21_access_panics (tokens : List Token) (h : AccessThen (stmt tokens 0)) :
    parse tokens = .panic .unreachableStatement := by
  rw [show stmt tokens 0 = (split tokens).cur from rfl] at h
  rw [parse_eq]
  generalize split tokens = s at h ⊢
  obtain ⟨cur, later⟩ := s
  dsimp only at h
  obtain ⟨v, t, r, h1, rfl, h3, h4, h5⟩ := h
  obtain ⟨first, tail, h6, h7, h8⟩ := VariableAccess.parse_complete v h1 (t :: r) (NoSlot.cons_iff.2 h5) later
  refine parseStmts_of (n := tail.length + 1 + 1) ?_ (by simp)
  rw [h6, List.cons_append, parseBlock_cons]
  have h9 : exec (parseStatement (parseBlock (tail.length + 1)) (tail.length + 1) first) ⟨tail ++ t :: r, later⟩ =
      .panic .unreachableStatement := by
    simp only [parseStatement, h7, if_true, parseAccessStatement, exec_bind, h8 (tail.length + 1) (by omega),
      Res.andThen_ok, exec_peek_cons]
    split
    · rename_i h; exact absurd h h3
    · rename_i h; exact absurd h h4
    · rfl
  rw [exec_toResult, h9]
  rfl

-- `a'Z b 1` is such a statement.
example : ∃ tokens, tokenize chars!"a'Z b VISIBLE\n" = .ok (.ok tokens) ∧
    AccessThen (stmt tokens 0) := by
  refine ⟨_, rfl, ⟨⟨_, none⟩, [⟨_, ⟨_, none⟩⟩]⟩, _, _, ?_, rfl, ?_, ?_, ?_⟩
  · simp [VariableAccess.WF, VariableAccessSlot.WF, Identifier.WF, Token.IsIdent]
  all_goals decide +kernel

/-! ## C22: the tokens of the tree -/

/-- **C22** The tokens held by the tree, errors included, are tokens of the input, in the same order, and none is
held twice. -/
theorem C22_tokens_sublist (tokens : List Token) (nodes : Block) (h : parse tokens = .ok nodes) :
    (toksBlock nodes).Sublist tokens := by
  have := parseStmts_post (split tokens)
  rw [← parse_eq, h, split_tokens] at this
  exact this.1.trans List.filter_sublist

example : ∃ tokens nodes, tokenize chars!"x R 1, GTFO y" = .ok (.ok tokens) ∧ parse tokens = .ok nodes ∧
    tokens.length = 6 ∧ (toksBlock nodes).length = 5 :=
  ⟨_, _, rfl, rfl, rfl, rfl⟩

/-- **C50** Every token held by the tree has the type that its place asks for, also when there are errors
elsewhere in the tree. -/
theorem C50_well_formed (tokens : List Token) (nodes : Block) (h : parse tokens = .ok nodes) :
    wfBlock nodes := by
  have := parseStmts_post (split tokens)
  rw [← parse_eq, h] at this
  exact this.2.1

-- Two statements with errors and one without.
example : ∃ tokens, tokenize chars!"GIMMEH VISIBLE\nI HAS A x ITZ\nVISIBLE x" = .ok (.ok tokens) ∧
    match parse tokens with
    | .ok [.astError (.unexpectedToken _), .astError (.iHasA (.expectedInitialValue _)), .visible ⟨_, [_], none⟩] => True
    | _ => False := by
  refine ⟨_, rfl, ?_⟩; exact trivial

/-! ## C23: only the statements count -/

/-- **C23** Two token lists on which the iterator delivers the same statements have the same tree. -/
theorem C23_statements_only (tokens tokens' : List Token)
    (h : ∀ k, stmt tokens k = stmt tokens' k) :
    parse tokens = parse tokens' := by
  rw [parse_eq, parse_eq]
  apply parseStmts_congr
  exact h

-- Without the second comma the statements are the same.
example : ∃ tokens tokens', tokenize chars!"VISIBLE x,,VISIBLE y" = .ok (.ok tokens) ∧
    tokens' = tokens.take 2 ++ tokens.drop 3 ∧ tokens ≠ tokens' ∧
    ∀ k, stmt tokens k = stmt tokens' k := by
  refine ⟨_, _, rfl, rfl, by decide +kernel, fun k => ?_⟩
  unfold stmt
  exact congrArg (fun s : Stmts => s.all.getD k []) (by decide +kernel)

/-! ## C38: programs without errors -/

/-- The grammar describes the first `L.length` statements of the token list, and there is no statement or an empty
one after them. -/
def DerivedBy (tokens : List Token) (L : List (List Token)) (nodes : Block) : Prop :=
  BlockG L nodes ∧ (∀ i < L.length, stmt tokens i = L.getD i []) ∧
    stmt tokens L.length = []

/-- **C38** `parse` returns a tree without errors iff the grammar derives the statements, and then the tree is the
one of the derivation. -/
theorem C38_error_free_iff (tokens : List Token) (nodes : Block) :
    (parse tokens = .ok nodes ∧ errorFreeBlock nodes) ↔ ∃ L, DerivedBy tokens L nodes := by
  have hstmt : ∀ k, stmt tokens k = (split tokens).all.getD k [] :=
    fun _ => rfl
  simp only [DerivedBy, hstmt]
  constructor
  · rintro ⟨h, he⟩
    have := parseStmts_post (split tokens)
    rw [← parse_eq, h] at this
    obtain ⟨L, s', h1, h2, h3⟩ := this.2.2 he
    obtain ⟨h4, h5⟩ := spans_iff.1 ⟨s', h1, h2⟩
    exact ⟨L, h3, h4, h5⟩
  · rintro ⟨L, h1, h2, h3⟩
    obtain ⟨s', h4, h5⟩ := spans_iff.2 ⟨h2, h3⟩
    have := parseStmts_complete h1 h4 h5
    rw [parse_eq]
    exact ⟨this, h1.errorFree⟩

-- A program with two statements, one of them inside a loop.
example : ∃ tokens, tokenize chars!"IM IN YR loop\nVISIBLE x\nIM OUTTA YR loop\nGTFO" = .ok (.ok tokens) ∧
    ∃ nodes, parse tokens = .ok nodes ∧ errorFreeBlock nodes ∧ nodes.length = 2 := by
  refine ⟨_, rfl, _, rfl, ?_, rfl⟩
  repeat' constructor

end Lol
