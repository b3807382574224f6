import Verif.Parser.ErrorLemmas
import Verif.Props.ParserFlat
import Verif.Props.SourceText

/-!
# Properties of the errors in a tree (C69)
-/

namespace Lol

/-! ## C69: what the errors say -/

/-- **C69** Every error in a tree, in the program or in any loop, function, case or branch, tells the truth: it is
about one of the statements of the program, its token is where the error says that something is missing or wrong, and
this is the case. -/
theorem C69_says {tokens : List Token} {nodes : Block} (h : parse tokens = .ok nodes) {b : Block}
    (hb : BlockIn b nodes) {e : ASTError} (he : .astError e ∈ b) : ErrorAt (split tokens).all e := by
  rw [parse_eq] at h
  exact parseStmts_errors h hb he

-- Errors in the program and two blocks deep.
example : ∃ tokens nodes i,
    tokenize chars!"I HAS A\nO RLY?\nYA RLY\nIM IN YR l\nx R\nVISIBLE SUM OF 1 AN\nIM OUTTA YR l\nOIC 5 \n" =
      .ok (.ok tokens) ∧ parse tokens = .ok nodes ∧ BlockIn i nodes ∧
    (match nodes with
      | [.astError (.iHasA (.missingIdentifier _)), .oRly .., .astError (.tooManyTokens _)] => True
      | _ => False) ∧
    (match i with
      | [.astError (.variableAssignment (.expectedValue _)), .astError (.expression (.missingOperands _))] => True
      | _ => False) := by
  refine ⟨_, _, _, rfl, rfl, .inside (.tail _ (.head _)) (.head _) (.inside (.head _) (.head _) .self), ?_⟩
  exact ⟨trivial, trivial⟩

/-- **C69** All the tokens of an error are tokens of one statement. -/
theorem C69_statement {tokens : List Token} {nodes : Block} (h : parse tokens = .ok nodes) {b : Block}
    (hb : BlockIn b nodes) {e : ASTError} (he : .astError e ∈ b) :
    e.toks ≠ [] ∧ ∃ k, ∀ t ∈ e.toks, t ∈ stmt tokens k := by
  obtain ⟨st, h1, h2, h3⟩ := (C69_says h hb he).toks
  obtain ⟨k, hk⟩ := List.getElem?_of_mem h1
  refine ⟨h2, k, fun t ht => ?_⟩
  rw [stmt, List.getD_eq_getElem?_getD, hk]
  exact h3 t ht

example : ∃ tokens nodes b e, tokenize chars!"IM IN YR l\nx R\nIM OUTTA YR l" = .ok (.ok tokens) ∧
    parse tokens = .ok nodes ∧ BlockIn b nodes ∧ .astError e ∈ b :=
  ⟨_, _, _, _, rfl, rfl, .inside (.head _) (.head _) .self, .head _⟩

/-- **C69** Three of the errors are never reported. -/
theorem C69_never {tokens : List Token} {nodes : Block} (h : parse tokens = .ok nodes) {b : Block}
    (hb : BlockIn b nodes) {e : ASTError} (he : .astError e ∈ b) (t : Token) :
    e ≠ .variableAssignment (.missingR t) ∧ e ≠ .imInYr (.invalidOperation t) ∧
      e ≠ .imInYr (.invalidConditional t) := by
  have := C69_says h hb he
  refine ⟨?_, ?_, ?_⟩ <;> (rintro rfl; exact this)

-- Every other error is reported for some source.
example : match tokenizeAndParse chars!"SRS 1 " with
    | .ok (.ok (.astError (.unexpectedToken _) :: _)) => True
    | _ => False := trivial
example : match tokenizeAndParse chars!"GTFO 1 " with
    | .ok (.ok (.gtfo _ :: .astError (.tooManyTokens _) :: _)) => True
    | _ => False := trivial
example : match tokenizeAndParse chars!"x'Z" with
    | .ok (.ok (.astError (.missingToken _) :: _)) => True
    | _ => False := trivial
example : match tokenizeAndParse chars!"HOW IZ I f\nGTFO" with
    | .ok (.ok (.astError (.missingBlockClosingToken _) :: _)) => True
    | _ => False := trivial
example : match tokenizeAndParse chars!"I HAS A 1 " with
    | .ok (.ok (.astError (.iHasA (.invalidIdentifier _)) :: _)) => True
    | _ => False := trivial
example : match tokenizeAndParse chars!"I HAS A" with
    | .ok (.ok (.astError (.iHasA (.missingIdentifier _)) :: _)) => True
    | _ => False := trivial
example : match tokenizeAndParse chars!"I HAS A x ITZ" with
    | .ok (.ok (.astError (.iHasA (.expectedInitialValue _)) :: _)) => True
    | _ => False := trivial
example : match tokenizeAndParse chars!"x R" with
    | .ok (.ok (.astError (.variableAssignment (.expectedValue _)) :: _)) => True
    | _ => False := trivial
example : match tokenizeAndParse chars!"NOT" with
    | .ok (.ok (.astError (.expression (.missingOperands _)) :: _)) => True
    | _ => False := trivial
example : match tokenizeAndParse chars!"O RLY" with
    | .ok (.ok (.astError (.oRly (.missingQuestionMark _)) :: _)) => True
    | _ => False := trivial
example : match tokenizeAndParse chars!"O RLY?\nYA RLY\nGTFO\nMEBBE\nGTFO\nOIC" with
    | .ok (.ok (.astError (.oRly (.missingMebbeExpression _)) :: _)) => True
    | _ => False := trivial
example : match tokenizeAndParse chars!"HOW IZ I" with
    | .ok (.ok (.astError (.howIsI (.missingNameIdentifier _)) :: _)) => True
    | _ => False := trivial
example : match tokenizeAndParse chars!"IM IN YR l UPPIN 1 " with
    | .ok (.ok (.astError (.imInYr (.missingYr _)) :: _)) => True
    | _ => False := trivial
example : match tokenizeAndParse chars!"IM IN YR" with
    | .ok (.ok (.astError (.imInYr (.missingStartLabel _)) :: _)) => True
    | _ => False := trivial
example : match tokenizeAndParse chars!"IM IN YR 1 " with
    | .ok (.ok (.astError (.imInYr (.invalidStartLabel _)) :: _)) => True
    | _ => False := trivial
example : match tokenizeAndParse chars!"IM IN YR l\nGTFO\nIM OUTTA YR" with
    | .ok (.ok (.astError (.imInYr (.missingEndLabel _)) :: _)) => True
    | _ => False := trivial
example : match tokenizeAndParse chars!"IM IN YR l\nGTFO\nIM OUTTA YR 1 " with
    | .ok (.ok (.astError (.imInYr (.invalidEndLabel _)) :: _)) => True
    | _ => False := trivial
example : match tokenizeAndParse chars!"IM IN YR l\nGTFO" with
    | .ok (.ok (.astError (.imInYr (.missingImOuttaYr _)) :: _)) => True
    | _ => False := trivial
example : match tokenizeAndParse chars!"IM IN YR l UPPIN YR\nGTFO" with
    | .ok (.ok (.astError (.imInYr (.missingOperand _)) :: _)) => True
    | _ => False := trivial
example : match tokenizeAndParse chars!"IM IN YR l UPPIN YR x TIL\nGTFO" with
    | .ok (.ok (.astError (.imInYr (.missingConditionalExpression _)) :: _)) => True
    | _ => False := trivial
example : match tokenizeAndParse chars!"I IZ" with
    | .ok (.ok (.astError (.iIz (.missingName _)) :: _)) => True
    | _ => False := trivial
example : match tokenizeAndParse chars!"I IZ f YR" with
    | .ok (.ok (.astError (.iIz (.missingArgument _)) :: _)) => True
    | _ => False := trivial
example : match tokenizeAndParse chars!"I IZ f YR x" with
    | .ok (.ok (.astError (.iIz (.missingMkay _)) :: _)) => True
    | _ => False := trivial

-- The sources that the comments in the code give for these three errors, and for `MissingName` and `MissingArgument`
-- (`src/parser/statements/assignment.rs:100`, `im_in_yr.rs:44,54`, `i_is.rs:26,31`): the first panics, the others
-- give other errors.
example : match tokenizeAndParse chars!"var 10 " with
    | .panic .unreachableStatement => True
    | _ => False := trivial
example : match tokenizeAndParse chars!"IM IN YR loop ADDING YR var" with
    | .ok (.ok (.astError (.tooManyTokens _) :: _)) => True
    | _ => False := trivial
example : match tokenizeAndParse chars!"IM IN YR loop UPPIN YR var BEFORE" with
    | .ok (.ok (.astError (.tooManyTokens _) :: _)) => True
    | _ => False := trivial
example : match tokenizeAndParse chars!"I IZ MKAY" with
    | .ok (.ok (.astError (.unexpectedToken _) :: _)) => True
    | _ => False := trivial
example : match tokenizeAndParse chars!"I IZ f YR MKAY" with
    | .ok (.ok (.astError (.unexpectedToken _) :: _)) => True
    | _ => False := trivial

/-! ## C69: functions that `parse` calls only where they succeed -/

/-- **C69** If `VariableAssignment::parse` is called where there is no `R`, then it reports the last token of the
variable. -/
theorem C69_missing_r (fuel : Nat) (v : VariableAccess) (it : StatementIterator)
    (h : ∀ t, it.next.1 = some t → ¬ t.Is .R) :
    ∃ a u, v.toks = a ++ [u] ∧ (VariableAssignment.parse fuel v).run StatementIterator.ops it =
      .err (.variableAssignment (.missingR u)) it.next.2 := by
  obtain ⟨a, ha⟩ := v.toks_last
  refine ⟨a, v.lastToken, ha, ?_⟩
  change Prog.run _ (Prog.bind (Prog.next _) _) it = _
  simp only [Prog.bind, Prog.run, StatementIterator.ops]
  cases hn : it.next.1 with
  | none => rfl
  | some t =>
    have : t.isKeyword .R = false := by simpa [Token.isKeyword, Token.Is] using h t hn
    simp only [Prog.bind, this, fail]
    rfl

-- `a'Z b` and no more, and the same followed by `GTFO`.
example : ∃ t z u g v, tokenize chars!"a'Z b GTFO" = .ok (.ok [t, z, u, g]) ∧ VariableAccess.toks v = [t, z, u] ∧
    (StatementIterator.new []).next.1 = none ∧ (StatementIterator.new [g]).next.1 = some g ∧ ¬ g.Is .R := by
  refine ⟨_, _, _, _, ⟨⟨_, none⟩, [⟨_, ⟨_, none⟩⟩]⟩, rfl, rfl, rfl, rfl, ?_⟩
  decide +kernel

/-- **C69** If `BukkitSetSlot::parse` is called where there is no `HAS A`, then it reports the last token of the
variable. -/
theorem C69_missing_has_a (fuel : Nat) (v : VariableAccess) (it : StatementIterator)
    (h : ∀ t, it.next.1 = some t → ¬ t.Is .HAS_A) :
    ∃ a u, v.toks = a ++ [u] ∧ (BukkitSetSlot.parse fuel v).run StatementIterator.ops it =
      .err (.unexpectedToken u) it.next.2 := by
  obtain ⟨a, ha⟩ := v.toks_last
  refine ⟨a, v.lastToken, ha, ?_⟩
  change Prog.run _ (Prog.bind (Prog.next _) _) it = _
  simp only [Prog.bind, Prog.run, StatementIterator.ops]
  cases hn : it.next.1 with
  | none => rfl
  | some t =>
    have : t.isKeyword .HAS_A = false := by simpa [Token.isKeyword, Token.Is] using h t hn
    simp only [Prog.bind, this, fail]
    rfl

-- `a'Z b` and no more, and the same followed by `GTFO`.
example : ∃ t z u g v, tokenize chars!"a'Z b GTFO" = .ok (.ok [t, z, u, g]) ∧ VariableAccess.toks v = [t, z, u] ∧
    (StatementIterator.new []).next.1 = none ∧ (StatementIterator.new [g]).next.1 = some g ∧ ¬ g.Is .HAS_A := by
  refine ⟨_, _, _, _, ⟨⟨_, none⟩, [⟨_, ⟨_, none⟩⟩]⟩, rfl, rfl, rfl, rfl, ?_⟩
  decide +kernel

end Lol
