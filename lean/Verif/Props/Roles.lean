import Verif.Parser.SwapLemmas
import Verif.Parser.CoverSpec
import Verif.Props.ParserMap
import Verif.Props.OptionalWords

/-! # Properties of `parse`: words that play the same part (C98) -/

namespace Lol

/-- Put words for words in an outcome of `parse`. -/
def swapOutcome (f : Token → Token) : Out Block → Out Block
  | .ok nodes => .ok (swapBlock f nodes)
  | .panic p => .panic p
  | .outOfFuel => .outOfFuel

mutual

private theorem errors_swap (f : Token → Token) : (node : Node) →
    (node.swap f).errors = node.errors.map (ASTError.map f)
  | .astError e => by simp [Node.swap, Node.errors]
  | .imInYr _ _ _ _ body _ => by simp [Node.swap, Node.errors, errors_swapBlock f body]
  | .wtf _ omgs omgWtf => by
    simp [Node.swap, Node.errors, errors_swapOmgs f omgs, errors_swapOmgWtf f omgWtf]
  | .oRly _ yaRly noWai mebbes => by
    simp [Node.swap, Node.errors, errors_swapYaRly f yaRly, errors_swapNoWai f noWai, errors_swapMebbes f mebbes]
  | .howIzI _ _ _ body => by simp [Node.swap, Node.errors, errors_swapBlock f body]
  | .iHasA _ | .hai _ | .bukkitSetSlot _ | .variableAssignment _ | .visible _ | .foundYr _ | .iIz _ | .gtfo _
  | .gimmeh _ | .expression _ | .kThxBye _ => by simp [Node.swap, Node.errors]

private theorem errors_swapOmgs (f : Token → Token) : (l : List WtfOmg) →
    errorsOmgs (swapOmgs f l) = (errorsOmgs l).map (ASTError.map f)
  | [] => by simp [swapOmgs, errorsOmgs]
  | .mk _ _ b :: rest => by simp [swapOmgs, errorsOmgs, errors_swapBlock f b, errors_swapOmgs f rest]

private theorem errors_swapOmgWtf (f : Token → Token) : (o : Option WtfOmgWtf) →
    errorsOmgWtf (swapOmgWtf f o) = (errorsOmgWtf o).map (ASTError.map f)
  | none => by simp [swapOmgWtf, errorsOmgWtf]
  | some (.mk _ b) => by simp [swapOmgWtf, errorsOmgWtf, errors_swapBlock f b]

private theorem errors_swapYaRly (f : Token → Token) : (o : Option YaRly) →
    errorsYaRly (swapYaRly f o) = (errorsYaRly o).map (ASTError.map f)
  | none => by simp [swapYaRly, errorsYaRly]
  | some (.mk _ b) => by simp [swapYaRly, errorsYaRly, errors_swapBlock f b]

private theorem errors_swapMebbes (f : Token → Token) : (l : List Mebbe) →
    errorsMebbes (swapMebbes f l) = (errorsMebbes l).map (ASTError.map f)
  | [] => by simp [swapMebbes, errorsMebbes]
  | .mk _ _ b :: rest => by simp [swapMebbes, errorsMebbes, errors_swapBlock f b, errors_swapMebbes f rest]

private theorem errors_swapNoWai (f : Token → Token) : (o : Option NoWai) →
    errorsNoWai (swapNoWai f o) = (errorsNoWai o).map (ASTError.map f)
  | none => by simp [swapNoWai, errorsNoWai]
  | some (.mk _ b) => by simp [swapNoWai, errorsNoWai, errors_swapBlock f b]

private theorem errors_swapBlock (f : Token → Token) : (l : List Node) →
    errorsBlock (swapBlock f l) = (errorsBlock l).map (ASTError.map f)
  | [] => by simp [swapBlock, errorsBlock]
  | node :: rest => by simp [swapBlock, errorsBlock, errors_swap f node, errors_swapBlock f rest]

end

private theorem parseStmts_swap {f : Token → Token} (hf : KeepsRole f) (s : Stmts) :
    parseStmts (s.map f) = swapOutcome f (parseStmts s) := by
  unfold parseStmts
  rw [Stmts.size_map, (Swap.block_maps hf (s.size + 2) (stop := stopRoot) fun _ => rfl).exec]
  cases exec (parseBlock (s.size + 2) stopRoot) s with
  | ok a s' => rfl
  | err e s' => simp [Res.replace, Res.block, swapOutcome, swapBlock, Node.swap]
  | panic p => rfl
  | outOfFuel => rfl

private theorem swap_congr {f : Token → Token} (hf : KeepsRole f) {ts us : List Token}
    (h : ∀ k, (stmt us k).map f = (stmt ts k).map f) : swapOutcome f (parse us) = swapOutcome f (parse ts) := by
  rw [parse_eq, parse_eq, ← parseStmts_swap hf, ← parseStmts_swap hf]
  apply parseStmts_congr
  intro k
  have h' : ∀ vs : List Token, ((split vs).map f).all.getD k [] = (stmt vs k).map f := by
    intro vs
    show ((split vs).cur.map _ :: (split vs).later.map (List.map _)).getD k [] = _
    rw [← List.map_cons (f := List.map f), stmt, List.getD_eq_getElem?_getD, List.getD_eq_getElem?_getD,
      List.getElem?_map]
    show ((split vs).all[k]?.map (List.map _)).getD [] = _
    cases (split vs).all[k]? <;> rfl
  rw [h', h', h k]

/-- **C98** Operators that take two operands can be exchanged for one another, and so can the operators that take any
number of operands, the types other than `NOOB`, `UPPIN` and `NERFIN`, and the words that the parser does not know: when
the statements of `us` are those of `ts` with every token replaced by one that plays the same part, then the tree of
`us` is that of `ts` with every token replaced and every operator, type and loop operation made the one that its token
names, errors included; `parse` panics on both or on none. -/
theorem C98_replace {f : Token → Token} (hf : ∀ t, (f t).tokenType.role = t.tokenType.role) {ts us : List Token}
    (h : ∀ k, stmt us k = (stmt ts k).map f) : parse us = swapOutcome f (parse ts) := by
  rw [parse_eq, parse_eq, ← parseStmts_swap hf]
  apply parseStmts_congr
  intro k
  have h' : ((split ts).map f).all.getD k [] = (stmt ts k).map f := by
    show ((split ts).cur.map f :: (split ts).later.map (List.map f)).getD k [] = _
    rw [← List.map_cons (f := List.map f), stmt, List.getD_eq_getElem?_getD, List.getD_eq_getElem?_getD,
      List.getElem?_map]
    show ((split ts).all[k]?.map (List.map f)).getD [] = _
    cases (split ts).all[k]? <;> rfl
  rw [h', ← h k]
  rfl

/-- The other way round (for the examples below): a difference for a sum, a concatenation for a conjunction, a string
for a number and `NERFIN` for `UPPIN`. -/
def otherWay (t : Token) : Token :=
  match t.tokenType with
  | .keyword .SUM_OF => { t with tokenType := .keyword .DIFF_OF }
  | .keyword .ALL_OF => { t with tokenType := .keyword .SMOOSH }
  | .keyword .NUMBR => { t with tokenType := .keyword .YARN }
  | .keyword .UPPIN => { t with tokenType := .keyword .NERFIN }
  | _ => t

private theorem otherWay_role (t : Token) : (otherWay t).tokenType.role = t.tokenType.role := by
  unfold otherWay
  split <;> first | rfl | (next h => rw [h]; rfl)

-- a program with an error: the second sum lacks an operand
example : ∃ ts, tokenize chars!"I HAS A x ITZ NUMBR\nVISIBLE ALL OF x AN SUM OF x AN x\nVISIBLE SUM OF x" = .ok (.ok ts) ∧
    (∀ t, (otherWay t).tokenType.role = t.tokenType.role) ∧
    (∀ k, stmt (ts.map otherWay) k = (stmt ts k).map otherWay) ∧
    ∃ i a o b l p r v w c e q, parse ts =
        .ok [.iHasA ⟨i, a, some (.type (.numbr c))⟩,
          .visible ⟨v, [.nary (.allOf o) [.mk w b, .mk (.binary (.sumOf p) l e r) none] none], none⟩,
          .astError (.expression (.missingOperands q))] ∧
      parse (ts.map otherWay) =
        .ok [.iHasA ⟨i, a, some (.type (.yarn (otherWay c)))⟩,
          .visible ⟨v, [.nary (.smoosh (otherWay o)) [.mk w b, .mk (.binary (.diffOf (otherWay p)) l e r) none] none], none⟩,
          .astError (.expression (.missingOperands (otherWay q)))] := by
  refine ⟨_, rfl, otherWay_role, fun k => ?_, _, _, _, _, _, _, _, _, _, _, _, _, rfl, rfl⟩
  exact stmts_each (f := fun st => st.map otherWay) (g := id) rfl rfl (by decide +kernel) k

/-- A token without its position, and of its type only the part that it plays. -/
def Token.part (t : Token) : Token :=
  ⟨t.tokenType.role, ⟨⟨0, 0, 0, 0⟩, ⟨0, 0, 0, 0⟩⟩⟩

private theorem role_role (ty : TokenType) : ty.role.role = ty.role := by
  cases ty with
  | keyword k => cases k <;> rfl
  | symbol s => by_cases h : s = ['?'] <;> simp [TokenType.role, TokenType.kind, h]
  | _ => rfl

/-- **C98** Two token lists whose tokens, statement by statement, play the same parts give the same tree, up to the
names, the values, the words that are exchanged and the positions in it. -/
theorem C98_roles {ts us : List Token}
    (h : ∀ k, (stmt us k).map (·.tokenType.role) = (stmt ts k).map (·.tokenType.role)) :
    swapOutcome Token.part (parse us) = swapOutcome Token.part (parse ts) := by
  refine swap_congr (fun t => role_role _) fun k => ?_
  have hm : ∀ vs : List Token, vs.map Token.part = (vs.map (·.tokenType.role)).map fun ty =>
      (⟨ty, ⟨⟨0, 0, 0, 0⟩, ⟨0, 0, 0, 0⟩⟩⟩ : Token) := by
    intro vs
    simp [Token.part]
  rw [hm, hm, h k]

private theorem roles_of_split {ts us : List Token} (h : (split us).all.map (List.map (·.tokenType.role)) =
    (split ts).all.map (List.map (·.tokenType.role))) (k : Nat) :
    (stmt us k).map (·.tokenType.role) = (stmt ts k).map (·.tokenType.role) := by
  have h' : ∀ vs : List Token, (stmt vs k).map (·.tokenType.role) =
      ((split vs).all.map (List.map (·.tokenType.role))).getD k [] := by
    intro vs
    rw [stmt, List.getD_eq_getElem?_getD, List.getD_eq_getElem?_getD, List.getElem?_map]
    cases (split vs).all[k]? <;> rfl
  rw [h', h', h]

-- other operators, names, values and separators
example : ∃ ts us, tokenize chars!"x R SUM OF x AN 1\nx IS NOW A NUMBR" = .ok (.ok ts) ∧
    tokenize chars!"yz R BOTH SAEM a AN \"b\", q A IS NOW YARN" = .ok (.ok us) ∧
    ∀ k, (stmt us k).map (·.tokenType.role) = (stmt ts k).map (·.tokenType.role) := by
  refine ⟨_, _, rfl, rfl, fun k => ?_⟩
  exact roles_of_split (by decide +kernel) k

/-- **C98** In particular `parse` panics on both, at the same place, or on none. -/
theorem C98_panics {ts us : List Token}
    (h : ∀ k, (stmt us k).map (·.tokenType.role) = (stmt ts k).map (·.tokenType.role)) (p : PanicSite) :
    parse us = .panic p ↔ parse ts = .panic p := by
  have := C98_roles h
  constructor <;> intro h' <;> rw [h'] at this
  · cases hu : parse ts <;> rw [hu] at this <;> cases this
    rfl
  · cases hu : parse us <;> rw [hu] at this <;> cases this
    rfl

-- a word that the parser does not know for another such word, after a variable
example : ∃ ts us, tokenize chars!"x IS NOW A YARN" = .ok (.ok ts) ∧ tokenize chars!"x A IS NOW TROOF" = .ok (.ok us) ∧
    (∀ k, (stmt us k).map (·.tokenType.role) = (stmt ts k).map (·.tokenType.role)) ∧
    parse ts = .panic .unreachableStatement ∧ parse us = .panic .unreachableStatement := by
  refine ⟨_, _, rfl, rfl, fun k => ?_, rfl, rfl⟩
  exact roles_of_split (by decide +kernel) k

/-- **C98** And the trees have the same errors, in the same order, at tokens that play the same parts. -/
theorem C98_errors {ts us : List Token} {a b : Block}
    (h : ∀ k, (stmt us k).map (·.tokenType.role) = (stmt ts k).map (·.tokenType.role))
    (hts : parse ts = .ok a) (hus : parse us = .ok b) :
    (errorsBlock b).map (ASTError.map Token.part) = (errorsBlock a).map (ASTError.map Token.part) := by
  have := C98_roles h
  rw [hts, hus] at this
  rw [← errors_swapBlock, ← errors_swapBlock, Out.ok.inj this]

example : ∃ ts us a b, tokenize chars!"VISIBLE SUM OF y\nI HAS A x ITZ A\nGIMMEH NUMBR" = .ok (.ok ts) ∧
    tokenize chars!"VISIBLE WON OF x\nI HAS A y ITZ IS NOW\nGIMMEH BUKKIT" = .ok (.ok us) ∧
    (∀ k, (stmt us k).map (·.tokenType.role) = (stmt ts k).map (·.tokenType.role)) ∧
    parse ts = .ok a ∧ parse us = .ok b ∧ (errorsBlock a).length = 3 ∧ (errorsBlock b).length = 3 := by
  refine ⟨_, _, _, _, rfl, rfl, fun k => ?_, rfl, rfl, rfl, rfl⟩
  exact roles_of_split (by decide +kernel) k

end Lol
