import Verif.Parser.TokensLemmas
import Verif.Parser.TreeLemmas
import Verif.Props.LexerRun
import Verif.Props.LexerPositions
import Verif.Props.ParserProgram

/-!
# Properties of the operations on syntax trees (C28, C29, C45, C49) and of `tokenize_and_parse` (C46, C48, C51)
-/

namespace Lol

/-! ## C46: `tokenize_and_parse` -/

/-- **C46** `tokenize_and_parse` returns an error iff `tokenize` returns this error. -/
theorem C46_error_iff (code : Str) (e : TokenError) :
    tokenizeAndParse code = .ok (.error e) ↔ tokenize code = .ok (.error e) := by
  unfold tokenizeAndParse
  cases tokenize code with
  | ok r =>
    cases r with
    | error e' => constructor <;> (intro h; cases h; rfl)
    | ok tokens =>
      change Out.bind (parse tokens) _ = _ ↔ _
      cases parse tokens <;> constructor <;> intro h <;> cases h
  | panic p => constructor <;> intro h <;> cases h
  | outOfFuel => constructor <;> intro h <;> cases h

/-- **C46** It returns a block iff `tokenize` returns tokens and `parse` returns this block for them. -/
theorem C46_ok_iff (code : Str) (nodes : Block) :
    tokenizeAndParse code = .ok (.ok nodes) ↔
      ∃ tokens, tokenize code = .ok (.ok tokens) ∧ parse tokens = .ok nodes := by
  unfold tokenizeAndParse
  cases tokenize code with
  | ok r =>
    cases r with
    | error e' =>
      constructor
      · intro h; cases h
      · rintro ⟨_, h, -⟩; cases h
    | ok tokens =>
      change Out.bind (parse tokens) _ = _ ↔ _
      constructor
      · intro h
        refine ⟨tokens, rfl, ?_⟩
        cases h2 : parse tokens <;> rw [h2] at h <;> cases h
        rfl
      · rintro ⟨ts, h1, h2⟩
        cases h1
        rw [h2]
        rfl
  | panic p =>
    constructor
    · intro h; cases h
    · rintro ⟨_, h, -⟩; cases h
  | outOfFuel =>
    constructor
    · intro h; cases h
    · rintro ⟨_, h, -⟩; cases h

/-- **C46** It panics iff `tokenize` panics or `parse` panics on the tokens. -/
theorem C46_panic_iff (code : Str) (p : PanicSite) :
    tokenizeAndParse code = .panic p ↔
      tokenize code = .panic p ∨ ∃ tokens, tokenize code = .ok (.ok tokens) ∧ parse tokens = .panic p := by
  unfold tokenizeAndParse
  cases tokenize code with
  | ok r =>
    cases r with
    | error e' =>
      constructor
      · intro h; cases h
      · rintro (h | ⟨_, h, -⟩) <;> cases h
    | ok tokens =>
      change Out.bind (parse tokens) _ = _ ↔ _
      constructor
      · intro h
        refine .inr ⟨tokens, rfl, ?_⟩
        cases h2 : parse tokens <;> rw [h2] at h <;> cases h
        rfl
      · rintro (h | ⟨ts, h1, h2⟩)
        · cases h
        · cases h1
          rw [h2]
          rfl
  | panic q =>
    constructor
    · intro h; cases h; exact .inl rfl
    · rintro (h | ⟨_, h, -⟩) <;> cases h
      rfl
  | outOfFuel =>
    constructor
    · intro h; cases h
    · rintro (h | ⟨_, h, -⟩) <;> cases h

/-- **C46** It always comes back. -/
theorem C46_terminates (code : Str) : tokenizeAndParse code ≠ .outOfFuel := by
  unfold tokenizeAndParse
  cases h1 : tokenize code with
  | ok r =>
    cases r with
    | error e' => intro h; cases h
    | ok tokens =>
      change Out.bind (parse tokens) _ ≠ _
      cases h2 : parse tokens with
      | outOfFuel => exact absurd h2 (C20_terminates tokens)
      | _ => intro h; cases h
  | panic q => intro h; cases h
  | outOfFuel => exact absurd h1 (C01_tokenize_terminates code)

-- Each of the three outcomes.
example : (∃ e, tokenizeAndParse chars!"VISIBLE x OBTW y" = .ok (.error e)) ∧
    (match tokenizeAndParse chars!"VISIBLE x" with | .ok (.ok [.visible _]) => True | _ => False) ∧
    (match tokenizeAndParse chars!"VISIBLE MAEK x" with | .panic .todoMaek => True | _ => False) := by
  refine ⟨⟨_, rfl⟩, ?_, ?_⟩ <;> exact trivial

/-! ## C28: token iterators -/

/-- **C28** The calls of `next` on `expression.tokens()` return the tokens of the expression from left to right and
then `None` for ever. (`n` bounds the nested calls inside one call of `next`.) -/
theorem C28_expression_tokens (e : Expr) : ∃ N, ∀ n ≥ N, ∀ k,
    calls (ExprIter.next n) k e.tokens = .ok ((List.range k).map fun i => e.toks[i]?) :=
  ⟨10 * e.depth + 10, fun n hn k => calls_eq (fun it h => it.next_step n h) k e.tokens hn⟩

/-- **C28** The same for variable accesses: the identifier, then the slots. -/
theorem C28_access_tokens (v : VariableAccess) : ∃ N, ∀ n ≥ N, ∀ k,
    calls (AccessIter.next n) k v.tokens = .ok ((List.range k).map fun i => v.toks[i]?) :=
  ⟨4, fun n hn k => calls_eq (fun it h => it.next_step n h) k v.tokens hn⟩

/-- **C28** The same for assignments: the access, `R`, the expression. -/
theorem C28_assignment_tokens (a : VariableAssignment) : ∃ N, ∀ n ≥ N, ∀ k,
    calls (AssignmentIter.next n) k a.tokens =
      .ok ((List.range k).map fun i => (a.variableAccess.toks ++ a.rToken :: a.expression.toks)[i]?) :=
  ⟨10 * a.expression.depth + 11, fun n hn k => calls_eq (fun it h => it.next_step n h) k a.tokens hn⟩

-- Six calls on a tree of four tokens.
example : ∃ tokens e, tokenize chars!"SUM OF x AN y" = .ok (.ok tokens) ∧ parse tokens = .ok [.expression e] ∧
    tokens.length = 4 ∧
    calls (ExprIter.next 40) 6 e.tokens = .ok (tokens.map some ++ [none, none]) := by
  refine ⟨_, _, rfl, rfl, rfl, ?_⟩; rfl

/-! ## C29: ranges -/

/-- **C29** `range()` of an expression goes from the start of its first token to the end of its last one. -/
theorem C29_expression_range (e : Expr) : ∃ first last, e.toks.head? = some first ∧ e.toks.getLast? = some last ∧
    e.range = (first.range.start, last.range.stop) :=
  e.range_spans

/-- **C29** The same for variable accesses. -/
theorem C29_access_range (v : VariableAccess) : ∃ first last, v.toks.head? = some first ∧
    v.toks.getLast? = some last ∧ v.range = (first.range.start, last.range.stop) :=
  v.range_spans

/-- **C29** The same for assignments. -/
theorem C29_assignment_range (a : VariableAssignment) : ∃ first last, a.variableAccess.toks.head? = some first ∧
    a.expression.toks.getLast? = some last ∧ a.range = (first.range.start, last.range.stop) := by
  obtain ⟨first, _, h1, _, h2⟩ := a.variableAccess.range_spans
  obtain ⟨_, last, _, h3, h4⟩ := a.expression.range_spans
  refine ⟨first, last, h1, h3, ?_⟩
  rw [VariableAssignment.range, h2, h4]

-- An open `SMOOSH` whose last operand is followed by `AN`.
example : ∃ tokens e, tokenize chars!"SMOOSH x AN y AN\n" = .ok (.ok tokens) ∧ parse tokens = .ok [.expression e] ∧
    e.range.2.bytes = 16 := by
  refine ⟨_, _, rfl, rfl, rfl⟩

/-- The tokens lie between the two ends of the range. -/
private theorem between {l : List Token} (h1 : ∀ t ∈ l, t.range.start.bytes < t.range.stop.bytes)
    (h2 : l.Pairwise (fun a b => a.range.stop.bytes ≤ b.range.start.bytes)) {first last : Token}
    (hf : l.head? = some first) (hl : l.getLast? = some last) :
    ∀ t ∈ l, first.range.start.bytes ≤ t.range.start.bytes ∧ t.range.stop.bytes ≤ last.range.stop.bytes := by
  intro t ht
  constructor
  · cases l with
    | nil => cases hf
    | cons a l =>
      cases hf
      rcases List.mem_cons.1 ht with rfl | ht'
      · exact Int.le_refl _
      · have := (List.pairwise_cons.1 h2).1 t ht'
        have := h1 first (by simp)
        omega
  · rcases List.eq_nil_or_concat l with rfl | ⟨l', a, rfl⟩
    · cases hl
    · rw [List.concat_eq_append] at *
      rw [List.getLast?_append] at hl
      simp at hl
      subst hl
      rcases List.mem_append.1 ht with ht' | ht'
      · have := (List.pairwise_append.1 h2).2.2 t ht' a (by simp)
        have := h1 a (by simp)
        omega
      · simp at ht'; subst ht'; exact Int.le_refl _

/-- **C29** In a tree that comes from source text, the range of every expression of every node is not empty and
contains all tokens of the expression. -/
theorem C29_source_range (code : Str) (nodes : Block) (h : tokenizeAndParse code = .ok (.ok nodes)) :
    ∀ node ∈ allNodes nodes, ∀ e ∈ node.exprs, ∀ x ∈ e.subs,
      x.range.1.bytes < x.range.2.bytes ∧
        ∀ t ∈ x.toks, x.range.1.bytes ≤ t.range.start.bytes ∧ t.range.stop.bytes ≤ x.range.2.bytes := by
  intro node hn e he x hx
  obtain ⟨tokens, h1, h2⟩ := (C46_ok_iff code nodes).1 h
  obtain ⟨h3, h4⟩ := allNodes_wf nodes (C50_well_formed tokens nodes h2) node hn
  obtain ⟨h5, h6⟩ := node.exprs_wf h3 e he
  obtain ⟨-, h7⟩ := e.subs_wf h5 x hx
  have hsub := ((h7.trans h6).trans h4).trans (C22_tokens_sublist tokens nodes h2)
  obtain ⟨h8, h9⟩ := C04_ranges_ordered h1
  have h8' : ∀ t ∈ x.toks, t.range.start.bytes < t.range.stop.bytes := fun t ht => h8 t (hsub.subset ht)
  obtain ⟨first, last, h10, h11, h12⟩ := x.range_spans
  have hb := between h8' (h9.sublist hsub) h10 h11
  rw [h12]
  refine ⟨?_, hb⟩
  have := hb first (List.mem_of_mem_head? (by simp [h10]))
  have := h8' first (List.mem_of_mem_head? (by simp [h10]))
  dsimp only
  omega

-- There are three such expressions here, one in a loop, one in a `VISIBLE` in the loop and one inside the latter.
example : ∃ nodes, tokenizeAndParse chars!"IM IN YR loop TIL x\nVISIBLE NOT y\nIM OUTTA YR loop" = .ok (.ok nodes) ∧
    ((allNodes nodes).flatMap fun node => node.exprs.flatMap Expr.subs).length = 3 := by
  refine ⟨_, rfl, rfl⟩

/-! ## C45: `iter_errors` -/

/-- **C45** is false: the first call of `next` on `iter_errors()` panics, for every block. -/
theorem C45_iter_errors_panics (b : Block) : (iterErrors b).next = .panic .todoIterErrors := rfl

/-- **C45** (partial: the result of the search is never used) The search before the panic finds the first node of
the block that is an error or has inner blocks. -/
theorem C45_search_partial (b : Block) :
    (findInBlocks (iterErrors b).blocks 0 0).1 = b.findSome? fun node =>
      match node, node.getInnerBlock with
      | _, some bs => some (.block bs)
      | .astError e, none => some (.error e)
      | _, none => none := by
  have h : ∀ (b : Block) k, (findInNodes b k).1 = b.findSome? fun node =>
      match node, node.getInnerBlock with
      | _, some bs => some (ErrorOrBlock.block bs)
      | .astError e, none => some (.error e)
      | _, none => none := by
    intro b
    induction b with
    | nil => intro k; rfl
    | cons node b ih =>
      intro k
      rw [findInNodes, List.findSome?_cons]
      cases node <;> simp [Node.errorOrBlock, Node.getInnerBlock, ih]
  rw [← h b 0]
  simp only [iterErrors, findInBlocks, List.drop_zero]
  cases hx : findInNodes b 0 with
  | mk r k => cases r <;> rfl

-- The first error is found behind a statement without error.
example : ∃ nodes, tokenizeAndParse chars!"VISIBLE x\nGIMMEH\nGTFO" = .ok (.ok nodes) ∧ nodes.length = 3 ∧
    match (findInBlocks (iterErrors nodes).blocks 0 0).1 with | some (.error (.missingToken _)) => True | _ => False := by
  refine ⟨_, rfl, rfl, ?_⟩; exact trivial

/-- An error or a construct with blocks. -/
def Node.isErrorOrConstruct : Node → Bool
  | .astError _ | .wtf .. | .oRly .. | .imInYr .. | .howIzI .. => true
  | _ => false

/-- **C45** (partial: the counters are never used again) After the search `current_block_statement` is the number of
nodes that were looked at, and `current_block_index` is still 0 when something was found. -/
theorem C45_counters_partial (b : Block) :
    (findInBlocks (iterErrors b).blocks 0 0).2 =
      match b.findIdx? Node.isErrorOrConstruct with
      | some i => (0, i + 1)
      | none => (1, b.length) := by
  have h : ∀ (b : Block) k, (findInNodes b k).1.isSome = (b.findIdx? Node.isErrorOrConstruct).isSome ∧ (findInNodes b k).2 = match b.findIdx? Node.isErrorOrConstruct with
      | some i => k + i + 1
      | none => k + b.length := by
    intro b
    induction b with
    | nil => intro k; exact ⟨rfl, rfl⟩
    | cons node b ih =>
      intro k
      obtain ⟨ih1, ih2⟩ := ih (k + 1)
      rw [findInNodes, List.findIdx?_cons]
      cases node <;> simp only [Node.errorOrBlock, Node.getInnerBlock, Node.isErrorOrConstruct] <;>
        first
        | exact ⟨rfl, rfl⟩
        | refine ⟨by rw [ih1]; simp, ?_⟩
          rw [ih2]
          simp only [Bool.false_eq_true, if_false]
          generalize List.findIdx? Node.isErrorOrConstruct b = o
          cases o <;> simp [Nat.add_comm, Nat.add_left_comm]
  obtain ⟨h1, h2⟩ := h b 0
  simp only [iterErrors, findInBlocks, List.drop_zero]
  cases hx : findInNodes b 0 with
  | mk r k =>
    rw [hx] at h1 h2
    generalize List.findIdx? Node.isErrorOrConstruct b = o at *
    cases o <;> cases r <;> simp_all

-- Two nodes are looked at; in a block without errors and inner blocks, all of them.
example : ∃ nodes more, tokenizeAndParse chars!"VISIBLE x\nGIMMEH\nGTFO" = .ok (.ok nodes) ∧
    (findInBlocks (iterErrors nodes).blocks 0 0).2 = (0, 2) ∧ tokenizeAndParse chars!"VISIBLE x\nGTFO" = .ok (.ok more) ∧
    (findInBlocks (iterErrors more).blocks 0 0).2 = (1, 2) :=
  ⟨_, _, rfl, rfl, rfl, rfl⟩

/-! ## C48, C51: nodes that no source text produces -/

/-- **C48** In a tree that comes from source text, no declaration has the type `NOOB`: `ITZ NOOB` is an initial
value. -/
theorem C48_no_noob_type (code : Str) (nodes : Block) (h : tokenizeAndParse code = .ok (.ok nodes)) :
    ∀ n, .iHasA n ∈ allNodes nodes → ∀ t, n.initialValue ≠ some (.type (.noob t)) := by
  obtain ⟨tokens, h1, h2⟩ := (C46_ok_iff code nodes).1 h
  rintro ⟨t0, i, v⟩ hn t hv
  cases hv
  obtain ⟨h3, h4⟩ := allNodes_wf nodes (C50_well_formed tokens nodes h2) _ hn
  have h5 : t.tokenType = .keyword .NOOB := h3.2.2 _ rfl
  have h6 : t ∈ tokens := by
    refine (h4.trans (C22_tokens_sublist tokens nodes h2)).subset ?_
    simp [Node.toks, IHasAInitialValue.toks, ASTType.token]
  exact (C11_never_emitted h1 h6 h5).2.2.1 rfl

-- `ITZ NOOB` inside a loop.
example : ∃ nodes, tokenizeAndParse chars!"IM IN YR loop\nI HAS A x ITZ NOOB\nIM OUTTA YR loop" = .ok (.ok nodes) ∧
    match allNodes nodes with
    | [_, .iHasA ⟨_, _, some (.expression (.value (.literal _)))⟩] => True
    | _ => False := by
  refine ⟨_, rfl, ?_⟩; exact trivial

-- The type is reached only by a token list that the tokenizer never returns.
example : match parse [⟨.keyword .I_HAS_A, ⟨.first, .first⟩⟩, ⟨.identifier ['x'], ⟨.first, .first⟩⟩,
    ⟨.keyword .ITZ, ⟨.first, .first⟩⟩, ⟨.keyword .NOOB, ⟨.first, .first⟩⟩] with
    | .ok [.iHasA ⟨_, _, some (.type (.noob _))⟩] => True
    | _ => False := by exact trivial

/-- **C51** In a tree that comes from source text there is no `ANY OF` operation, at any depth. -/
theorem C51_no_any_of (code : Str) (nodes : Block) (h : tokenizeAndParse code = .ok (.ok nodes)) :
    ∀ node ∈ allNodes nodes, ∀ e ∈ node.exprs, ∀ t es mkay, .nary (.anyOf t) es mkay ∉ e.subs := by
  obtain ⟨tokens, h1, h2⟩ := (C46_ok_iff code nodes).1 h
  intro node hn e he t es mkay hx
  obtain ⟨h3, h4⟩ := allNodes_wf nodes (C50_well_formed tokens nodes h2) _ hn
  obtain ⟨h5, h6⟩ := node.exprs_wf h3 e he
  obtain ⟨h7, h8⟩ := e.subs_wf h5 _ hx
  rw [Expr.WF] at h7
  have h9 : t.tokenType = .keyword .ANY_OF := h7.1
  have h10 : t ∈ tokens := by
    refine (((h8.trans h6).trans h4).trans (C22_tokens_sublist tokens nodes h2)).subset ?_
    simp [Expr.toks, NaryOpt.token]
  exact (C11_never_emitted h1 h10 h9).2.2.2.2.2 rfl

-- `ANY OF x AN y` is lexed as identifiers and panics as a statement; `ALL OF` gives an operation.
example : (match tokenizeAndParse chars!"VISIBLE ALL OF x AN y MKAY" with
      | .ok (.ok [.visible ⟨_, [.nary (.allOf _) _ _], none⟩]) => True | _ => False) ∧
    (match tokenizeAndParse chars!"ANY OF x AN y MKAY" with
      | .ok (.ok [.expression _]) => False | _ => True) := by
  constructor <;> exact trivial

/-! ## C49: inner blocks -/

/-- **C49** The inner blocks of each kind of node. -/
theorem C49_inner_blocks :
    (∀ t omgs o, (Node.wtf t omgs o).getInnerBlock =
      some ((omgs.map fun | .mk _ _ b => b) ++ o.toList.map fun | .mk _ b => b)) ∧
    (∀ t y n m, (Node.oRly t y n m).getInnerBlock =
      some ((y.toList.map fun | .mk _ b => b) ++ (m.map fun | .mk _ _ b => b) ++ n.toList.map fun | .mk _ b => b)) ∧
    (∀ t l o c b l', (Node.imInYr t l o c b l').getInnerBlock = some [b]) ∧
    (∀ t i ps b, (Node.howIzI t i ps b).getInnerBlock = some [b]) ∧
    (∀ node : Node, node.getInnerBlock = none ↔ (∀ t omgs o, node ≠ .wtf t omgs o) ∧
      (∀ t y n m, node ≠ .oRly t y n m) ∧ (∀ t l o c b l', node ≠ .imInYr t l o c b l') ∧
      (∀ t i ps b, node ≠ .howIzI t i ps b)) := by
  have h1 : (fun | .mk _ _ b => b : WtfOmg → Block) = WtfOmg.block := by funext x; cases x; rfl
  have h2 : (fun | .mk _ _ b => b : Mebbe → Block) = Mebbe.block := by funext x; cases x; rfl
  refine ⟨?_, ?_, fun _ _ _ _ _ _ => rfl, fun _ _ _ _ => rfl, ?_⟩
  · intro t omgs o
    rw [h1]
    cases o with
    | none => simp [Node.getInnerBlock]
    | some o => cases o; simp [Node.getInnerBlock, WtfOmgWtf.block]
  · intro t y n m
    rw [h2]
    cases y with
    | none =>
      cases n with
      | none => simp [Node.getInnerBlock, foldl_push Mebbe.block]
      | some n => cases n; simp [Node.getInnerBlock, foldl_push Mebbe.block, NoWai.block]
    | some y =>
      cases y
      cases n with
      | none => simp [Node.getInnerBlock, foldl_push Mebbe.block, YaRly.block]
      | some n => cases n; simp [Node.getInnerBlock, foldl_push Mebbe.block, NoWai.block, YaRly.block]
  · intro node
    cases node <;> simp [Node.getInnerBlock]

/-- **C49** The tokens of the inner blocks, one block after the other, are tokens of the node in the order of the
source. -/
theorem C49_source_order (node : Node) (bs : List Block) (h : node.getInnerBlock = some bs) :
    (bs.flatMap toksBlock).Sublist node.toks := by
  obtain ⟨h1, h2, h3, h4, -⟩ := C49_inner_blocks
  have e1 : (fun | .mk _ _ b => b : WtfOmg → Block) = WtfOmg.block := by funext x; cases x; rfl
  have e2 : (fun | .mk _ _ b => b : Mebbe → Block) = Mebbe.block := by funext x; cases x; rfl
  cases node with
  | wtf t omgs o =>
    rw [h1, e1] at h
    cases h
    rw [List.flatMap_append]
    refine .cons _ (List.Sublist.append (toksOmgs_blocks omgs) ?_)
    cases o with
    | none => exact List.nil_sublist _
    | some o => cases o; simp [toksOmgWtf]
  | oRly t y n m =>
    rw [h2, e2] at h
    cases h
    rw [List.flatMap_append, List.flatMap_append, List.append_assoc]
    refine .cons _ (List.Sublist.append ?_ (List.Sublist.append (toksMebbes_blocks m) ?_))
    · cases y with
      | none => exact List.nil_sublist _
      | some y => cases y; simp [toksYaRly]
    · cases n with
      | none => exact List.nil_sublist _
      | some n => cases n; simp [toksNoWai]
  | imInYr t l o c b l' =>
    cases h
    simp only [List.flatMap_cons, List.flatMap_nil, List.append_nil, Node.toks]
    exact .cons _ (.cons _ (((List.sublist_append_left _ _).trans (List.sublist_append_right _ _)).trans
      (List.sublist_append_right _ _)))
  | howIzI t i ps b =>
    cases h
    simp only [List.flatMap_cons, List.flatMap_nil, List.append_nil, Node.toks]
    exact .cons _ ((List.sublist_append_right _ _).trans (List.sublist_append_right _ _))
  | _ => cases h

example : ∃ tokens nodes bs, tokenize chars!"O RLY?\nYA RLY\nx\nMEBBE z\ny\nOIC" = .ok (.ok tokens) ∧
    parse tokens = .ok nodes ∧ (nodes.head?.bind Node.getInnerBlock) = some bs ∧ bs.length = 2 :=
  ⟨_, _, _, rfl, rfl, rfl, rfl⟩

/-- **C49** No inner block is missing: a node is free of errors iff it is not an error itself and its inner blocks
are free of errors. -/
theorem C49_complete (node : Node) :
    (∀ e, .astError e ∉ node.nodes) ↔ (∀ e, node ≠ .astError e) ∧
      ∀ bs, node.getInnerBlock = some bs → ∀ b ∈ bs, ∀ e, .astError e ∉ allNodes b := by
  rw [← Node.errorFree_iff]
  simp only [← errorFreeBlock_iff]
  obtain ⟨h1, h2, h3, h4, -⟩ := C49_inner_blocks
  have e1 : (fun | .mk _ _ b => b : WtfOmg → Block) = WtfOmg.block := by funext x; cases x; rfl
  have e2 : (fun | .mk _ _ b => b : Mebbe → Block) = Mebbe.block := by funext x; cases x; rfl
  cases node with
  | wtf t omgs o =>
    rw [h1, e1, Node.ErrorFree, errorFreeOmgs_blocks]
    cases o with
    | none => simp [errorFreeOmgWtf]
    | some o => cases o; simp [errorFreeOmgWtf, or_imp, forall_and]
  | oRly t y n m =>
    rw [h2, e2, Node.ErrorFree, errorFreeMebbes_blocks]
    cases y with
    | none =>
      cases n with
      | none => simp [errorFreeYaRly, errorFreeNoWai]
      | some n => cases n; simp [errorFreeYaRly, errorFreeNoWai, or_imp, forall_and]
    | some y =>
      cases y
      cases n with
      | none => simp [errorFreeYaRly, errorFreeNoWai]
      | some n => cases n; simp [errorFreeYaRly, errorFreeNoWai, or_imp, forall_and]
  | _ => simp [Node.getInnerBlock, Node.ErrorFree]

-- A conditional with three branches.
example : ∃ nodes, tokenizeAndParse
      chars!"O RLY?\nYA RLY\nVISIBLE a\nMEBBE x\nVISIBLE b, GTFO\nNO WAI\nVISIBLE c\nOIC" = .ok (.ok nodes) ∧
    match nodes.map Node.getInnerBlock with
    | [some [[.visible _], [.visible _, .gtfo _], [.visible _]]] => True
    | _ => False := by
  refine ⟨_, rfl, ?_⟩; exact trivial

end Lol
