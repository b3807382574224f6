import Verif.Parser.PrintLemmas
import Verif.Props.SourceText

/-! # Properties of `parse` and `tokenize_and_parse`: every tree can be written down (C59) -/

namespace Lol

/-! ## C59 -/

/-- **C59** Whatever the statements, there is a token list with these statements, as long as no comma or ellipsis is
in them. -/
theorem C59_statements (L : List (List Token))
    (h : ∀ st ∈ L, ∀ t ∈ st, t.tokenType ≠ .comma ∧ t.tokenType ≠ .ellipsis) :
    ∃ tokens, ∀ k, stmt tokens k = L.getD k [] := ⟨dottedTokens L, stmt_dotted h⟩

private def farApart : List (List Token) :=
  [[onLine 4 (.keyword .GIMMEH), onLine 2 (.identifier ['x'])], [], [onLine 4 (.keyword .GTFO)]]

-- A statement whose tokens are on different lines, an empty one, and one on the same line again.
example : ∀ st ∈ farApart, ∀ t ∈ st, t.tokenType ≠ .comma ∧ t.tokenType ≠ .ellipsis := by decide

theorem CompleteTree.plain {nodes : Block} (h : CompleteTree nodes) : AllStmts Token.Plain (printBlock nodes) :=
  allStmts_printBlock adds_plain nodes (plain_block nodes h.1 h.2)

/-- **C59** `parse` gives the tree back from the statements that `printBlock` writes down. -/
theorem C59_print {nodes : Block} (h : CompleteTree nodes) {tokens : List Token}
    (ht : ∀ k, stmt tokens k = (printBlock nodes).getD k []) : parse tokens = .ok nodes :=
  ((C38_error_free_iff tokens nodes).2 ⟨printBlock nodes, printBlock_G nodes h.1 h.2, fun i _ => ht i, by
    rw [ht, List.getD_eq_getElem?_getD, List.getElem?_eq_none (Nat.le_refl _)]
    rfl⟩).1

example : CompleteTree [.gtfo ⟨.keyword .GTFO, ⟨.first, .first⟩⟩, .kThxBye ⟨.keyword .KTHXBYE, ⟨.first, .first⟩⟩] ∧
    printBlock [.gtfo ⟨.keyword .GTFO, ⟨.first, .first⟩⟩, .kThxBye ⟨.keyword .KTHXBYE, ⟨.first, .first⟩⟩] =
      [[⟨.keyword .GTFO, ⟨.first, .first⟩⟩], [⟨.keyword .KTHXBYE, ⟨.first, .first⟩⟩]] := by
  refine ⟨⟨⟨rfl, rfl, trivial⟩, ?_⟩, rfl⟩
  intro node h
  simp [allNodes, Node.nodes] at h
  rcases h with rfl | rfl <;> trivial

/-- **C59** The trees that `parse` returns without errors are exactly the well formed ones with the right shape. -/
theorem C59_trees (nodes : Block) :
    (∃ tokens, parse tokens = .ok nodes ∧ errorFreeBlock nodes) ↔ CompleteTree nodes := by
  constructor
  · rintro ⟨tokens, h, he⟩
    refine ⟨C50_well_formed tokens nodes h, ?_⟩
    obtain ⟨L, h1, h2, h3⟩ := (C38_error_free_iff tokens nodes).1 ⟨h, he⟩
    refine h1.shape fun st hst t ht => ?_
    obtain ⟨i, hi, rfl⟩ := List.getElem_of_mem hst
    refine C24_no_separators tokens i t ?_
    rw [h2 i hi, List.getD_eq_getElem?_getD, List.getElem?_eq_getElem hi]
    exact ht
  · intro h
    obtain ⟨tokens, ht⟩ := C59_statements (printBlock nodes) h.plain
    refine ⟨tokens, C59_print h ht, (errorFreeBlock_iff nodes).2 fun e he => ?_⟩
    exact h.2 _ he

-- A function with two parameters and an empty body (an empty statement, written `,` after an ellipsis), then a
-- conditional: the tree, and what is written down for it.
example : ∃ tokens, tokenize (chars!"HOW IZ I f YR a AN YR b\n...,\nIF U SAY SO\n...,\n" ++
      chars!"O RLY?\nYA RLY\nVISIBLE x!\nOIC\n") = .ok (.ok tokens) ∧
    ∃ nodes, parse tokens = .ok nodes ∧ errorFreeBlock nodes ∧ nodes.length = 2 ∧
      (printBlock nodes).map (List.map (·.tokenType)) =
        [[.keyword .HOW_IZ_I, .identifier ['f'], .keyword .YR, .identifier ['a'], .keyword .AN, .keyword .YR,
          .identifier ['b']], [], [.keyword .IF_U_SAY_SO], [], [.keyword .O_RLY, .symbol ['?']], [.keyword .YA_RLY],
          [.keyword .VISIBLE, .identifier ['x'], .exclamationMark], [.keyword .OIC]] := by
  refine ⟨_, rfl, _, rfl, ?_, rfl, by decide +kernel⟩
  repeat' constructor

/-- **C59** So a program that is parsed without errors can be replaced by its tree: what is written down from the tree
has the same tree. -/
theorem C59_again {tokens tokens' : List Token} {nodes : Block} (h : parse tokens = .ok nodes)
    (he : errorFreeBlock nodes) (ht : ∀ k, stmt tokens' k = (printBlock nodes).getD k []) :
    parse tokens' = .ok nodes :=
  C59_print ((C59_trees nodes).1 ⟨tokens, h, he⟩) ht

example : ∃ tokens nodes, tokenize chars!"IM IN YR a\nVISIBLE x\nIM OUTTA YR a" = .ok (.ok tokens) ∧
    parse tokens = .ok nodes ∧ errorFreeBlock nodes ∧ (printBlock nodes).length = 3 ∧
    ∀ k, (stmt tokens k).map (·.tokenType) = ((printBlock nodes).getD k []).map (·.tokenType) := by
  refine ⟨_, _, rfl, rfl, ?_, rfl, fun k => ?_⟩
  · repeat' constructor
  · match k with
    | 0 | 1 | 2 => rfl
    | k + 3 => rfl

/-- **C59** Different trees are written down differently. -/
theorem C59_injective {nodes nodes' : Block} (h : CompleteTree nodes) (h' : CompleteTree nodes')
    (heq : printBlock nodes = printBlock nodes') : nodes = nodes' := by
  obtain ⟨tokens, ht⟩ := C59_statements (printBlock nodes) h.plain
  have h1 := C59_print h ht
  have h2 := C59_print h' (heq ▸ ht)
  rw [h1] at h2
  exact Out.ok.inj h2

example : ∃ tokens tokens' nodes nodes', tokenize chars!"VISIBLE x y" = .ok (.ok tokens) ∧
    tokenize chars!"VISIBLE x, y" = .ok (.ok tokens') ∧ parse tokens = .ok nodes ∧ parse tokens' = .ok nodes' ∧
    CompleteTree nodes ∧ CompleteTree nodes' ∧ printBlock nodes ≠ printBlock nodes' := by
  have hc : ∀ {ts ns}, parse ts = .ok ns → errorFreeBlock ns → CompleteTree ns := fun h1 h2 => (C59_trees _).1 ⟨_, h1, h2⟩
  refine ⟨_, _, _, _, rfl, rfl, rfl, rfl, @hc (match tokenize chars!"VISIBLE x y" with | .ok (.ok ts) => ts | _ => []) _ rfl ?_,
    @hc (match tokenize chars!"VISIBLE x, y" with | .ok (.ok ts) => ts | _ => []) _ rfl ?_, by decide +kernel⟩
  · repeat' constructor
  · repeat' constructor

theorem adds_writable : Adds fun t => Writable t.tokenType :=
  ⟨fun k hk => by
    have h : ∀ k ∈ [Keyword.YR, .AN, .MKAY, .ITZ, .HAS_A, .TIL, .WILE, .IM_OUTTA_YR, .OIC, .IF_U_SAY_SO],
        k ∉ hiddenKeywords := by decide
    exact h k hk,
   ⟨'?', rfl, by decide, by decide, by decide, by decide, by decide, by decide, by decide⟩⟩

theorem writableLine_of : (tys : List TokenType) → (∀ ty ∈ tys, Writable ty) → WritableLine tys
  | [], _ => trivial
  | ty :: tys, h => by
    have h1 := h ty (by simp)
    have h2 := writableLine_of tys fun x hx => h x (by simp [hx])
    cases ty with
    | commentSingleLine s => exact h1.elim
    | _ => exact ⟨h1, h2⟩

/-- **C59** Every such tree whose tokens can be written down is, up to positions, the tree of a source text. -/
theorem C59_source {nodes : Block} (h : CompleteTree nodes) (hw : ∀ t ∈ toksBlock nodes, Writable t.tokenType) :
    ∃ text nodes', tokenizeAndParse text = .ok (.ok nodes') ∧
      mapBlock Token.unplaced nodes' = mapBlock Token.unplaced nodes := by
  have hall : AllStmts (fun t => Writable t.tokenType) (printBlock nodes) :=
    allStmts_printBlock adds_writable nodes hw
  refine C57_trees (ts := dottedTokens (printBlock nodes)) (fun k => ?_) (C59_print h (stmt_dotted h.plain))
  rw [stmt_dotted h.plain, List.getD_eq_getElem?_getD]
  cases hk : (printBlock nodes)[k]? with
  | none => trivial
  | some st =>
    refine writableLine_of _ fun ty hty => ?_
    obtain ⟨t, ht, rfl⟩ := List.mem_map.1 hty
    exact hall st (List.mem_of_getElem? hk) t ht

-- A call whose arguments are followed by `AN` in the source: the tree, and that its tokens can be written down.
example : ∃ tokens, tokenize chars!"I IZ f YR x AN MKAY\n" = .ok (.ok tokens) ∧
    ∃ nodes, parse tokens = .ok nodes ∧ errorFreeBlock nodes ∧
      (toksBlock nodes).map (·.tokenType) = [.keyword .I_IZ, .identifier ['f'], .identifier ['x']] ∧
      (∀ ty ∈ [TokenType.keyword .I_IZ, .identifier ['f'], .identifier ['x']], Writable ty) ∧
      (printBlock nodes).map (List.map (·.tokenType)) =
        [[.keyword .I_IZ, .identifier ['f'], .keyword .YR, .identifier ['x'], .keyword .MKAY]] := by
  refine ⟨_, rfl, _, rfl, ?_, by decide +kernel, ?_, by decide +kernel⟩
  · repeat' constructor
  · intro ty h
    have hf : ∀ k ∈ Keyword.all, ¬ k.spelling <+: ['f'] := by decide +kernel
    have hx : ∀ k ∈ Keyword.all, ¬ k.spelling <+: ['x'] := by decide +kernel
    simp only [List.mem_cons, List.not_mem_nil, or_false] at h
    rcases h with rfl | rfl | rfl
    · exact (by decide : Keyword.I_IZ ∉ hiddenKeywords)
    · exact ⟨by decide, by decide, fun k => hf k k.mem_all⟩
    · exact ⟨by decide, by decide, fun k => hx k k.mem_all⟩

end Lol
