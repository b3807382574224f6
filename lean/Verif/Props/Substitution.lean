import Verif.Parser.SubstBack
import Verif.Props.OptionalWords

/-! # Expressions put in place of literals (C97) -/

namespace Lol

/-- **C97** In a program that is parsed without errors, well-formed expressions can be put in place of literals
(strings, numbers, `WIN` and `FAIL`), wherever they stand except after `HAI`: the program is still parsed without
errors, and up to positions the tree is the same with these expressions in place of the literals. The expressions must
not end with an operation that is not closed by `MKAY`. -/
theorem C97_put_in {σ : Token → Option Expr} (hσ : Replaces σ) {tokens tokens' : List Token} {nodes : Block}
    (h : parse tokens = .ok nodes) (he : errorFreeBlock nodes)
    (hs : ∀ k, (stmt tokens' k).map Token.unplaced = (putIn σ (stmt tokens k)).map Token.unplaced) :
    ∃ nodes', parse tokens' = .ok nodes' ∧ errorFreeBlock nodes' ∧
      mapBlock Token.unplaced nodes' = mapBlock Token.unplaced (retouchBlock (withExpressions σ) nodes) :=
  parse_retouch (fits_putIn hσ) h he hs

/-- `x` for the number 7 and `SMOOSH x MKAY` for the number 8. -/
private def seven (t : Token) : Option Expr :=
  let x : Expr := .value (.variableAccess ⟨⟨tok (.identifier ['x']), none⟩, []⟩)
  if t.tokenType = .value (.number (.int 7)) then some x
  else if t.tokenType = .value (.number (.int 8)) then
    some (.nary (.smoosh (tok (.keyword .SMOOSH))) [.mk x none] (some (tok (.keyword .MKAY))))
  else none

private theorem seven_replaces : Replaces seven := by
  intro t e h
  unfold seven at h
  simp only at h
  split at h
  · next h7 =>
    cases h
    refine ⟨⟨_, h7⟩, ?_, ?_, ?_⟩
    · rw [Expr.WF]
      exact ⟨⟨⟨_, rfl⟩, by simp⟩, by simp⟩
    · simp [Expr.Open]
    · simp [Expr.IsNoob]
  · split at h
    · next h8 =>
      cases h
      refine ⟨⟨_, h8⟩, ?_, ?_, ?_⟩
      · simp only [Expr.WF, wfOperands]
        exact ⟨rfl, ⟨⟨⟨⟨_, rfl⟩, by simp⟩, by simp⟩, by simp, by simp [Expr.Open], trivial⟩, by simp [Token.Is, tok]⟩
      · simp [Expr.Open]
      · simp [Expr.IsNoob]
    · cases h

-- `7` is replaced in an operand, `8` in an argument and as a statement of its own.
set_option maxRecDepth 8000 in
example : Replaces seven ∧ ∃ tokens tokens' nodes,
    tokenize chars!"VISIBLE SUM OF 7 AN 9\nI IZ f YR 8 MKAY\n8\n" = .ok (.ok tokens) ∧
    tokenize chars!"VISIBLE SUM OF x AN 9\nI IZ f YR SMOOSH x MKAY MKAY\nSMOOSH x MKAY\n" = .ok (.ok tokens') ∧
    parse tokens = .ok nodes ∧ errorFreeBlock nodes ∧
    ∀ k, (stmt tokens' k).map Token.unplaced = (putIn seven (stmt tokens k)).map Token.unplaced := by
  refine ⟨seven_replaces, _, _, _, rfl, rfl, rfl, ?_, ?_⟩
  · simp [errorFreeBlock, Node.ErrorFree]
  · exact stmts_each (f := fun st => (putIn seven st).map Token.unplaced) rfl rfl (by decide +kernel)

-- An operation without `MKAY` in place of `7` takes the operand that follows.
example : ((tokenizeAndParse chars!"SUM OF 7 AN y\n") matches .ok (.ok [.expression _])) ∧
    ((tokenizeAndParse chars!"SUM OF SMOOSH x AN y\n") matches .ok (.ok [.astError _])) := ⟨rfl, rfl⟩

/-- What is done to the statements neither makes a statement empty nor a program without errors from one with. -/
theorem parse_back {f : List Token → List Token} (hf : ∀ st, f st = [] ↔ st = [])
    (hG : ∀ {L nodes}, BlockG (L.map f) nodes → ∃ nodes0, BlockG L nodes0) {tokens tokens' : List Token}
    {nodes' : Block} (h : parse tokens' = .ok nodes') (he : errorFreeBlock nodes')
    (hs : ∀ k, (stmt tokens' k).map Token.unplaced = (f (stmt tokens k)).map Token.unplaced) :
    ∃ nodes, parse tokens = .ok nodes ∧ errorFreeBlock nodes := by
  have hn : f [] = [] := (hf []).2 rfl
  have hk : KeepsKind Token.unplaced := fun _ => rfl
  have h1 : mapOutcome Token.unplaced (parseStmts ((split tokens).each f)) = .ok (mapBlock Token.unplaced nodes') := by
    rw [← parseStmts_map hk]
    have := parseStmts_map hk (split tokens')
    rw [← parse_eq, h] at this
    refine Eq.trans ?_ this
    apply parseStmts_congr
    intro k
    rw [Stmts.map_getD, Stmts.map_getD, Stmts.each_getD hn]
    exact (hs k).symm
  have h2 := parseStmts_post ((split tokens).each f)
  cases hp : parseStmts ((split tokens).each f) with
  | ok nodes =>
    rw [hp] at h1 h2
    have h3 : errorFreeBlock nodes := by
      rw [← errorFreeBlock_map Token.unplaced, Out.ok.inj h1, errorFreeBlock_map]
      exact he
    obtain ⟨L, s', h4, h5, h6⟩ := h2.2.2 h3
    obtain ⟨h7, h8⟩ := spans_iff.1 ⟨s', h4, h5⟩
    have hL : ((List.range L.length).map (stmt tokens)).map f = L := by
      apply List.ext_getElem (by simp)
      intro i hi hi'
      have := h7 i hi'
      rw [Stmts.each_getD hn] at this
      simp only [List.getElem_map, List.getElem_range]
      rw [stmt, this, List.getD_eq_getElem?_getD, List.getElem?_eq_getElem hi']
      rfl
    rw [← hL] at h6
    obtain ⟨nodes0, h9⟩ := hG h6
    refine ⟨nodes0, (C38_error_free_iff tokens nodes0).2 ⟨_, h9, fun i hi => ?_, ?_⟩⟩
    · have hi' : i < L.length := by simpa using hi
      rw [List.getD_eq_getElem?_getD, List.getElem?_eq_getElem hi]
      simp
    · rw [Stmts.each_getD hn] at h8
      rw [List.length_map, List.length_range]
      exact (hf _).1 h8
  | panic p => rw [hp] at h1; cases h1
  | outOfFuel => rw [hp] at h1; cases h1

/-- **C97** The expressions can also be taken back: when they do not end with a variable access either, then a program
is parsed without errors exactly if it is with the expressions in place of the literals. So which literal or closed
expression stands at a place makes no difference. -/
theorem C97_iff {σ : Token → Option Expr} (hσ : ReplacesFirmly σ) {tokens tokens' : List Token}
    (hs : ∀ k, (stmt tokens' k).map Token.unplaced = (putIn σ (stmt tokens k)).map Token.unplaced) :
    (∃ nodes, parse tokens = .ok nodes ∧ errorFreeBlock nodes) ↔
      ∃ nodes', parse tokens' = .ok nodes' ∧ errorFreeBlock nodes' := by
  constructor
  · rintro ⟨nodes, h, he⟩
    obtain ⟨nodes', h1, h2, -⟩ := C97_put_in hσ.1 h he hs
    exact ⟨nodes', h1, h2⟩
  · rintro ⟨nodes', h, he⟩
    exact parse_back (fun _ => putIn_nil_iff) (fun hG => BlockG.back hσ hG _ rfl) h he hs

/-- `NOT 9` for the number 7. -/
private def notNine (t : Token) : Option Expr :=
  if t.tokenType = .value (.number (.int 7)) then
    some (.unary (.not (tok (.keyword .NOT))) (.value (.literal (tok (.value (.number (.int 9)))))))
  else none

private theorem notNine_replaces : ReplacesFirmly notNine := by
  refine ⟨fun t e h => ?_, fun t e h => ?_⟩ <;> unfold notNine at h <;> split at h
  · next h7 =>
    cases h
    refine ⟨⟨_, h7⟩, ?_, ?_, ?_⟩
    · simp only [Expr.WF]
      exact ⟨rfl, .inl ⟨_, rfl⟩⟩
    · simp [Expr.Open]
    · simp [Expr.IsNoob]
  · cases h
  · cases h
    simp [Expr.EndsInAccess]
  · cases h

-- Without errors on both sides, and with errors on both sides: `7` and `NOT 9` can be shown, but not read into.
set_option maxRecDepth 8000 in
example : ReplacesFirmly notNine ∧ ∃ tokens tokens' us us',
    tokenize chars!"VISIBLE 7 7 \n" = .ok (.ok tokens) ∧ tokenize chars!"VISIBLE NOT 9 NOT 9 \n" = .ok (.ok tokens') ∧
    (∀ k, (stmt tokens' k).map Token.unplaced = (putIn notNine (stmt tokens k)).map Token.unplaced) ∧
    ((parse tokens) matches .ok [.visible _]) ∧ ((parse tokens') matches .ok [.visible _]) ∧
    tokenize chars!"GIMMEH 7 \n" = .ok (.ok us) ∧ tokenize chars!"GIMMEH NOT 9 \n" = .ok (.ok us') ∧
    (∀ k, (stmt us' k).map Token.unplaced = (putIn notNine (stmt us k)).map Token.unplaced) ∧
    ((parse us) matches .ok (.astError _ :: _)) ∧ ((parse us') matches .ok (.astError _ :: _)) := by
  refine ⟨notNine_replaces, _, _, _, _, rfl, rfl, ?_, rfl, rfl, rfl, rfl, ?_, rfl, rfl⟩
  · exact stmts_each (f := fun st => (putIn notNine st).map Token.unplaced) rfl rfl (by decide +kernel)
  · exact stmts_each (f := fun st => (putIn notNine st).map Token.unplaced) rfl rfl (by decide +kernel)

-- With variable accesses it is not so: `7` cannot be read into or go on with `'Z`, but `x` can.
example : ((tokenizeAndParse chars!"GIMMEH 7\n") matches .ok (.ok (.astError _ :: _))) ∧
    ((tokenizeAndParse chars!"GIMMEH x\n") matches .ok (.ok [.gimmeh _])) ∧
    ((tokenizeAndParse chars!"NOT 7 'Z y\n") matches .ok (.ok (_ :: .astError _ :: _))) ∧
    ((tokenizeAndParse chars!"NOT x 'Z y\n") matches .ok (.ok [.expression _])) := ⟨rfl, rfl, rfl, rfl⟩

end Lol
