import Verif.Parser.CommentLemmas
import Verif.Props.ParserProgram

/-!
# Properties of `parse` on block constructs (C34-C37, C42-C44, C47, C53)

`split tokens` is the division of the token list into statements, which is what the iterator delivers (C18, C23).
`Reaches (split tokens) before ⟨ts, later⟩` says that the statement `ts` belongs to the program itself (not to the
body of a construct), that the statements `later` follow it, and that the nodes `before` come from the statements
before it. `BlockIn b tree` says that `b` is `tree` or the body of a construct somewhere inside `tree`.
-/

namespace Lol

theorem parse_stmts {tokens : List Token} {tree : Block} (h : parse tokens = .ok tree) :
    parseStmts (split tokens) = .ok tree := by rw [← parse_eq]; exact h

/-! ## C53: trees with errors -/

/-- **C53** `parse` returns a tree iff the tree is what is read from the statements, errors included. -/
theorem C53_tree_iff (tokens : List Token) (tree : Block) :
    parse tokens = .ok tree ↔ ∃ s, BlockR [] (split tokens) (.ok tree s) := by
  rw [parse_eq]
  exact parseStmts_ok_iff

/-- **C53** `parse` panics iff reading the statements runs into the panic. -/
theorem C53_panic_iff (tokens : List Token) (p : PanicSite) :
    parse tokens = .panic p ↔ BlockR [] (split tokens) (.panic p) := by
  rw [parse_eq]
  exact parseStmts_panic_iff

/-- **C53** There is exactly one way to read a list of statements up to given closing keywords, and it never ends in
an error that is not in the tree. -/
theorem C53_unique (close : List Keyword) (s : Stmts) :
    ∃ r, BlockR close s r ∧ (∀ r', BlockR close s r' → r' = r) ∧ ∀ e s', r ≠ .error e s' := by
  obtain ⟨r, h⟩ := BlockR.total close s
  exact ⟨r, h, fun r' h' => h'.det h, fun e s' => h.noError e s'⟩

-- A loop without its closing label, in a program that goes on.
example : ∃ tokens tree, tokenize chars!"IM IN YR x\nVISIBLE y\nIM OUTTA YR\nGTFO" = .ok (.ok tokens) ∧
    (∃ s, BlockR [] (split tokens) (.ok tree s)) ∧
    (match tree with | [.astError (.imInYr (.missingEndLabel _)), .gtfo _] => True | _ => False) := by
  refine ⟨_, _, rfl, (C53_tree_iff _ _).1 rfl, ?_⟩
  exact trivial

/-- For the examples: the second statement of a program that starts with `GTFO`. -/
theorem reaches_second {tokens : List Token} {g : Token} {st : List Token} {l : List (List Token)}
    (h : split tokens = ⟨[g], st :: l⟩) (hg : g.Is .GTFO) (hst : st ≠ []) :
    Reaches (split tokens) [.gtfo g] ⟨st, l⟩ := by
  rw [h]
  exact .step .start (.ok (.simple (ts := [g]) (rest := []) (.gtfo hg))) hst

/-! ## C34: loops -/

section
variable {tokens ts : List Token} {tree before : Block} {later : List (List Token)}

/-- **C34** At each statement of the program: the tree has a loop there iff the statements are a header, a body,
and `IM OUTTA YR` with a label. -/
theorem C34_loop_iff (h : Reaches (split tokens) before ⟨ts, later⟩) (ht : parse tokens = .ok tree) (hts : ts ≠ [])
    (t label : Token) (op : Option LoopIterationOperation) (cond : Option LoopCondition) (body : Block)
    (endLabel : Token) :
    HasNode tree before (.imInYr t label op cond body endLabel) ↔
      ∃ rest l, LoopAt ts later t label op cond body endLabel rest l := by
  rw [hasNode_iff h (parse_stmts ht) hts (by simp)]
  simp only [NodeR.loop_iff]

-- A loop after another statement.
example : ∃ tokens tree g ts later, tokenize chars!"GTFO\nIM IN YR a\nx\nIM OUTTA YR b" = .ok (.ok tokens) ∧
    parse tokens = .ok tree ∧ Reaches (split tokens) [.gtfo g] ⟨ts, later⟩ ∧ ts ≠ [] ∧
    ∃ t label x endLabel, HasNode tree [.gtfo g] (.imInYr t label none none [.expression x] endLabel) :=
  ⟨_, _, _, _, _, rfl, rfl, reaches_second rfl rfl (by decide +kernel), by decide +kernel, _, _, _, _, _, rfl⟩

/-- **C34** A loop anywhere in the tree, also inside bodies, comes from such statements of the program. -/
theorem C34_loop_anywhere (ht : parse tokens = .ok tree) {b : Block} (hb : BlockIn b tree) {t label : Token}
    {op : Option LoopIterationOperation} {cond : Option LoopCondition} {body : Block} {endLabel : Token}
    (hn : .imInYr t label op cond body endLabel ∈ b) :
    ∃ first ts later rest l, (split tokens).all = first ++ ts :: later ∧
      LoopAt ts later t label op cond body endLabel rest l := by
  rcases parseStmts_nodes (parse_stmts ht) hb hn with ⟨e, h, -⟩ | h
  · cases h
  · obtain ⟨first, ts, later, s', -, h2, h3⟩ := readIn_iff.1 h
    exact ⟨first, ts, later, s'.cur, s'.later, h2, NodeR.loop_iff.1 h3⟩

-- A loop with all parts.
example : ∃ tokens tree, tokenize chars!"IM IN YR a UPPIN YR b TIL BOTH SAEM b AN c\nVISIBLE b\nIM OUTTA YR d" =
      .ok (.ok tokens) ∧ parse tokens = .ok tree ∧ (split tokens).cur ≠ [] ∧
    ∃ t label op cond x endLabel, HasNode tree [] (.imInYr t label (some op) (some cond) [.visible x] endLabel) :=
  ⟨_, _, rfl, rfl, by decide +kernel, _, _, _, _, _, _, _, rfl⟩

/-! ## C35: functions -/

/-- **C35** At each statement of the program: the tree has a function there iff the statements are a header,
a body, and `IF U SAY SO`. -/
theorem C35_function_iff (h : Reaches (split tokens) before ⟨ts, later⟩) (ht : parse tokens = .ok tree)
    (hts : ts ≠ []) (t : Token) (name : Identifier) (params : List Identifier) (body : Block) :
    HasNode tree before (.howIzI t name params body) ↔ ∃ l, FunctionAt ts later t name params body l := by
  rw [hasNode_iff h (parse_stmts ht) hts (by simp)]
  constructor
  · rintro ⟨rest, l, h⟩
    obtain ⟨l', h, -⟩ := NodeR.function_iff.1 h
    exact ⟨l', h⟩
  · rintro ⟨l, h⟩
    exact ⟨_, _, NodeR.function_iff.2 ⟨l, h, rfl⟩⟩

-- A function after another statement.
example : ∃ tokens tree g ts later, tokenize chars!"GTFO\nHOW IZ I f YR a\nx\nIF U SAY SO" = .ok (.ok tokens) ∧
    parse tokens = .ok tree ∧ Reaches (split tokens) [.gtfo g] ⟨ts, later⟩ ∧ ts ≠ [] ∧
    ∃ t name a x, HasNode tree [.gtfo g] (.howIzI t name [a] [.expression x]) :=
  ⟨_, _, _, _, _, rfl, rfl, reaches_second rfl rfl (by decide +kernel), by decide +kernel, _, _, _, _, _, rfl⟩

/-- **C35** A function anywhere in the tree, also inside bodies, comes from such statements of the program. -/
theorem C35_function_anywhere (ht : parse tokens = .ok tree) {b : Block} (hb : BlockIn b tree) {t : Token}
    {name : Identifier} {params : List Identifier} {body : Block} (hn : .howIzI t name params body ∈ b) :
    ∃ first ts later l, (split tokens).all = first ++ ts :: later ∧ FunctionAt ts later t name params body l := by
  rcases parseStmts_nodes (parse_stmts ht) hb hn with ⟨e, h, -⟩ | h
  · cases h
  · obtain ⟨first, ts, later, s', -, h2, h3⟩ := readIn_iff.1 h
    obtain ⟨l, h3, -⟩ := NodeR.function_iff.1 h3
    exact ⟨first, ts, later, l, h2, h3⟩

-- A function with two parameters.
example : ∃ tokens tree, tokenize chars!"HOW IZ I a YR b AN YR c\nFOUND YR b\nIF U SAY SO\n" = .ok (.ok tokens) ∧
    parse tokens = .ok tree ∧ (split tokens).cur ≠ [] ∧
    ∃ t name i j x, HasNode tree [] (.howIzI t name [i, j] [.foundYr x]) :=
  ⟨_, _, rfl, rfl, by decide +kernel, _, _, _, _, _, _, rfl⟩

/-! ## C36: conditionals -/

/-- **C36** At each statement of the program: the tree has a conditional there iff the statements are `O RLY ?`, an
optional `YA RLY` part, `MEBBE` parts, an optional `NO WAI` part, and `OIC`. -/
theorem C36_conditional_iff (h : Reaches (split tokens) before ⟨ts, later⟩) (ht : parse tokens = .ok tree)
    (hts : ts ≠ []) (t : Token) (yaRly : Option YaRly) (noWai : Option NoWai) (mebbes : List Mebbe) :
    HasNode tree before (.oRly t yaRly noWai mebbes) ↔
      ∃ rest l, ConditionalAt ts later t yaRly noWai mebbes rest l := by
  rw [hasNode_iff h (parse_stmts ht) hts (by simp)]
  simp only [NodeR.conditional_iff]

-- A conditional after another statement.
example : ∃ tokens tree g ts later, tokenize chars!"GTFO\nO RLY?\nYA RLY\nx\nOIC" = .ok (.ok tokens) ∧
    parse tokens = .ok tree ∧ Reaches (split tokens) [.gtfo g] ⟨ts, later⟩ ∧ ts ≠ [] ∧
    ∃ t y, HasNode tree [.gtfo g] (.oRly t (some y) none []) :=
  ⟨_, _, _, _, _, rfl, rfl, reaches_second rfl rfl (by decide +kernel), by decide +kernel, _, _, _, rfl⟩

/-- **C36** A conditional anywhere in the tree, also inside bodies, comes from such statements of the program. -/
theorem C36_conditional_anywhere (ht : parse tokens = .ok tree) {b : Block} (hb : BlockIn b tree) {t : Token}
    {yaRly : Option YaRly} {noWai : Option NoWai} {mebbes : List Mebbe} (hn : .oRly t yaRly noWai mebbes ∈ b) :
    ∃ first ts later rest l, (split tokens).all = first ++ ts :: later ∧
      ConditionalAt ts later t yaRly noWai mebbes rest l := by
  rcases parseStmts_nodes (parse_stmts ht) hb hn with ⟨e, h, -⟩ | h
  · cases h
  · obtain ⟨first, ts, later, s', -, h2, h3⟩ := readIn_iff.1 h
    exact ⟨first, ts, later, s'.cur, s'.later, h2, NodeR.conditional_iff.1 h3⟩

-- A conditional with all parts.
example : ∃ tokens tree,
    tokenize chars!"O RLY?\nYA RLY\nGTFO\nMEBBE a\nGTFO\nMEBBE b\nGTFO\nNO WAI\nGTFO\nOIC" = .ok (.ok tokens) ∧
    parse tokens = .ok tree ∧ (split tokens).cur ≠ [] ∧
    ∃ t y n m m', HasNode tree [] (.oRly t (some y) (some n) [m, m']) :=
  ⟨_, _, rfl, rfl, by decide +kernel, _, _, _, _, _, _, rfl⟩

/-! ## C37: switches -/

/-- **C37** At each statement of the program: the tree has a switch there iff the statements are `WTF ?`, `OMG`
parts, an optional `OMGWTF` part, and `OIC`. -/
theorem C37_switch_iff (h : Reaches (split tokens) before ⟨ts, later⟩) (ht : parse tokens = .ok tree)
    (hts : ts ≠ []) (t : Token) (omgs : List WtfOmg) (omgWtf : Option WtfOmgWtf) :
    HasNode tree before (.wtf t omgs omgWtf) ↔ ∃ l, SwitchAt ts later t omgs omgWtf l := by
  rw [hasNode_iff h (parse_stmts ht) hts (by simp)]
  constructor
  · rintro ⟨rest, l, h⟩
    obtain ⟨l', h, -⟩ := NodeR.switch_iff.1 h
    exact ⟨l', h⟩
  · rintro ⟨l, h⟩
    exact ⟨_, _, NodeR.switch_iff.2 ⟨l, h, rfl⟩⟩

-- A switch after another statement.
example : ∃ tokens tree g ts later, tokenize chars!"GTFO\nWTF?\nOMG 1\nx\nOIC" = .ok (.ok tokens) ∧
    parse tokens = .ok tree ∧ Reaches (split tokens) [.gtfo g] ⟨ts, later⟩ ∧ ts ≠ [] ∧
    ∃ t o, HasNode tree [.gtfo g] (.wtf t [o] none) :=
  ⟨_, _, _, _, _, rfl, rfl, reaches_second rfl rfl (by decide +kernel), by decide +kernel, _, _, _, rfl⟩

/-- **C37** A switch anywhere in the tree, also inside bodies, comes from such statements of the program. -/
theorem C37_switch_anywhere (ht : parse tokens = .ok tree) {b : Block} (hb : BlockIn b tree) {t : Token}
    {omgs : List WtfOmg} {omgWtf : Option WtfOmgWtf} (hn : .wtf t omgs omgWtf ∈ b) :
    ∃ first ts later l, (split tokens).all = first ++ ts :: later ∧ SwitchAt ts later t omgs omgWtf l := by
  rcases parseStmts_nodes (parse_stmts ht) hb hn with ⟨e, h, -⟩ | h
  · cases h
  · obtain ⟨first, ts, later, s', -, h2, h3⟩ := readIn_iff.1 h
    obtain ⟨l, h3, -⟩ := NodeR.switch_iff.1 h3
    exact ⟨first, ts, later, l, h2, h3⟩

-- A switch with two cases and a default case.
example : ∃ tokens tree,
    tokenize chars!"WTF?\nOMG a\nGTFO\nOMG b\nGTFO\nOMGWTF\nGTFO\nOIC" = .ok (.ok tokens) ∧
    parse tokens = .ok tree ∧ (split tokens).cur ≠ [] ∧
    ∃ t o o' d, HasNode tree [] (.wtf t [o, o'] (some d)) :=
  ⟨_, _, rfl, rfl, by decide +kernel, _, _, _, _, _, rfl⟩

/-! ## C42: empty bodies -/

/-- **C42** (partial: the claim is false, see `C42_closed_at_once`) If no statement of the program is empty, no
block in the tree is empty. -/
theorem C42_no_empty_partial (ht : parse tokens = .ok tree) (hs : [] ∉ (split tokens).all) {b : Block}
    (hb : BlockIn b tree) : b ≠ [] := parseStmts_no_empty (parse_stmts ht) hb hs

example : ∃ tokens tree b, tokenize chars!"IM IN YR a\nGTFO\nIM OUTTA YR a" = .ok (.ok tokens) ∧ parse tokens = .ok tree ∧
    [] ∉ (split tokens).all ∧ BlockIn b tree ∧ b.length = 1 ∧ b ≠ tree := by
  refine ⟨_, _, _, rfl, rfl, by decide +kernel, .inside (.head _) (.head _) .self, rfl, ?_⟩
  simp

/-- **C42** If a closing keyword directly follows the header of a loop, the keyword is the first node of the body,
an error. -/
theorem C42_loop_closed_at_once {t label : Token} {op : Option LoopIterationOperation} {cond : Option LoopCondition}
    {body : Block} {endLabel c : Token} {k : Keyword} {r rest : List Token} {l : List (List Token)}
    (h : LoopAt ts ((c :: r) :: later) t label op cond body endLabel rest l) (hk : k ∈ closingKeywords)
    (hc : c.Is k) : ∃ more, body = .astError (.unexpectedToken c) :: (leftoverNodes r ++ more) := by
  obtain ⟨c', -, h, -⟩ := h
  exact BlockR.closing_first h hk hc

example : ∃ tokens c r l t label body endLabel rest l', tokenize chars!"IM IN YR a\nOIC b\nIM OUTTA YR a" = .ok (.ok tokens) ∧
    (split tokens).later = (c :: r) :: l ∧ c.Is .OIC ∧
    LoopAt (split tokens).cur ((c :: r) :: l) t label none none body endLabel rest l' := by
  obtain ⟨tokens, t, label, body, e, c, r, l, h1, h2, h3, h4, h5⟩ : ∃ tokens t label body e c r l,
      tokenize chars!"IM IN YR a\nOIC b\nIM OUTTA YR a" = .ok (.ok tokens) ∧
      parse tokens = .ok [.imInYr t label none none body e] ∧ (split tokens).cur ≠ [] ∧
      (split tokens).later = (c :: r) :: l ∧ c.Is .OIC := ⟨_, _, _, _, _, _, _, _, rfl, rfl, by decide +kernel, rfl, rfl⟩
  obtain ⟨r', l', h6⟩ := (C34_loop_iff .start h2 h3 t label none none body e).1 ⟨_, rfl⟩
  exact ⟨tokens, c, r, l, t, label, body, e, r', l', h1, h4, h5, h4 ▸ h6⟩

/-- **C42** If a closing keyword directly follows the header of a function, the keyword is the first node of the body,
an error. -/
theorem C42_function_closed_at_once {t : Token} {name : Identifier} {params : List Identifier} {body : Block}
    {c : Token} {k : Keyword} {r : List Token} {l : List (List Token)}
    (h : FunctionAt ts ((c :: r) :: later) t name params body l) (hk : k ∈ closingKeywords)
    (hc : c.Is k) : ∃ more, body = .astError (.unexpectedToken c) :: (leftoverNodes r ++ more) := by
  obtain ⟨c', -, h, -⟩ := h
  exact BlockR.closing_first h hk hc

example : ∃ tokens c r l t name body l', tokenize chars!"HOW IZ I a\nOIC b\nIF U SAY SO" = .ok (.ok tokens) ∧
    (split tokens).later = (c :: r) :: l ∧ c.Is .OIC ∧
    FunctionAt (split tokens).cur ((c :: r) :: l) t name [] body l' := by
  obtain ⟨tokens, t, name, body, c, r, l, h1, h2, h3, h4, h5⟩ : ∃ tokens t name body c r l,
      tokenize chars!"HOW IZ I a\nOIC b\nIF U SAY SO" = .ok (.ok tokens) ∧
      parse tokens = .ok [.howIzI t name [] body] ∧ (split tokens).cur ≠ [] ∧
      (split tokens).later = (c :: r) :: l ∧ c.Is .OIC := ⟨_, _, _, _, _, _, _, rfl, rfl, by decide +kernel, rfl, rfl⟩
  obtain ⟨l', h6⟩ := (C35_function_iff .start h2 h3 t name [] body).1 ⟨_, rfl⟩
  exact ⟨tokens, c, r, l, t, name, body, l', h1, h4, h5, h4 ▸ h6⟩

/-- **C42** An empty loop, an empty function, an empty branch and an empty case: none of them gives an empty block,
and the construct is never closed. -/
theorem C42_closed_at_once :
    (∃ tokens, tokenize chars!"IM IN YR a\nIM OUTTA YR a\n" = .ok (.ok tokens) ∧
      match parse tokens with | .ok [.astError (.imInYr (.missingImOuttaYr _))] => True | _ => False) ∧
    (∃ tokens, tokenize chars!"HOW IZ I a\nIF U SAY SO\n" = .ok (.ok tokens) ∧
      match parse tokens with | .ok [.astError (.missingBlockClosingToken _)] => True | _ => False) ∧
    (∃ tokens, tokenize chars!"O RLY?\nYA RLY\nNO WAI\nOIC\n" = .ok (.ok tokens) ∧
      match parse tokens with
      | .ok [.oRly _ (some (.mk _ [.astError (.unexpectedToken _)])) none []] => True
      | _ => False) ∧
    ∃ tokens, tokenize chars!"WTF?\nOMG a\nOMG b\nOIC\n" = .ok (.ok tokens) ∧
      match parse tokens with
      | .ok [.wtf _ [.mk _ _ [.astError (.unexpectedToken _), .astError (.tooManyTokens _)]] none] => True
      | _ => False := by
  refine ⟨⟨_, rfl, ?_⟩, ⟨_, rfl, ?_⟩, ⟨_, rfl, ?_⟩, ⟨_, rfl, ?_⟩⟩ <;> exact trivial

-- An empty statement before the closing keyword gives an empty block.
example : ∃ tokens, tokenize chars!"IM IN YR a\n..., IM OUTTA YR a\n" = .ok (.ok tokens) ∧
      match parse tokens with | .ok [.imInYr _ _ _ _ [] _] => True | _ => False := by
  refine ⟨_, rfl, ?_⟩
  exact trivial

/-! ## C43: the statement after `HAI`, a function or a switch -/

/-- **C43** (the claim is false) The statement after `HAI`, a function or a switch is not parsed: it is reported as
a whole, whatever it is. -/
theorem C43_next_reported (h : Reaches (split tokens) before ⟨ts, later⟩) (ht : parse tokens = .ok tree)
    {node : Node} {st : List Token} {l : List (List Token)} (hn : TakesNextAt ts later node (st :: l))
    (hst : st ≠ []) : ∃ more, tree = before ++ node :: .astError (.tooManyTokens st) :: more := by
  obtain ⟨more, hm⟩ := reaches_node h hn.nodeR (parse_stmts ht)
  refine ⟨more, ?_⟩
  rw [hm]
  simp [leftoverNodes, hst]

example : ∃ tokens tree g ts later node st l, tokenize chars!"GTFO\nHAI 1.2\nVISIBLE x" = .ok (.ok tokens) ∧
    parse tokens = .ok tree ∧ Reaches (split tokens) [.gtfo g] ⟨ts, later⟩ ∧ TakesNextAt ts later node (st :: l) ∧
    st ≠ [] :=
  ⟨_, _, _, _, _, _, _, _, rfl, rfl, reaches_second rfl rfl (by decide +kernel), .hai rfl rfl, by decide +kernel⟩

/-- **C43** The same inside bodies: if no statement is empty, then in every block of the tree such a node is the last
one or is followed by the report of a whole statement. -/
theorem C43_next_reported_anywhere (ht : parse tokens = .ok tree) (hs : [] ∉ (split tokens).all) {b : Block}
    (hb : BlockIn b tree) {first : Block} {node x : Node} {more : Block} (he : b = first ++ node :: x :: more)
    (hn : node.TakesNext) : ∃ st ∈ (split tokens).all, x = .astError (.tooManyTokens st) :=
  NextReported.iff.1 (parseStmts_nextReported (parse_stmts ht) hb hs) first node x more he hn

example : ∃ tokens tree h x y, tokenize chars!"HAI 1.2\nVISIBLE x\nGTFO" = .ok (.ok tokens) ∧ [] ∉ (split tokens).all ∧
    parse tokens = .ok tree ∧ BlockIn tree tree ∧ tree = [] ++ .hai h :: x :: y ∧ (Node.hai h).TakesNext :=
  ⟨_, _, _, _, _, rfl, by decide +kernel, rfl, .self, rfl, trivial⟩

/-- **C43** (partial: only after an empty statement) After `HAI`, a function or a switch and an empty statement, the
next statement is parsed like any other. -/
theorem C43_after_empty_partial (h : Reaches (split tokens) before ⟨ts, later⟩)
    {node : Node} {st : List Token} {l : List (List Token)} (hn : TakesNextAt ts later node ([] :: st :: l))
    (hst : st ≠ []) : Reaches (split tokens) (before ++ [node]) ⟨st, l⟩ :=
  .step h (.ok hn.nodeR) hst

example : ∃ tokens g ts later node st l, tokenize chars!"GTFO\nHAI 1.2\n..., VISIBLE x" = .ok (.ok tokens) ∧
    Reaches (split tokens) [.gtfo g] ⟨ts, later⟩ ∧ TakesNextAt ts later node ([] :: st :: l) ∧ st ≠ [] :=
  ⟨_, _, _, _, _, _, _, rfl, reaches_second rfl rfl (by decide +kernel), .hai rfl rfl, by decide +kernel⟩

/-- **C43** A node that takes the next statement is produced in no other way. -/
theorem C43_takes_next (h : Reaches (split tokens) before ⟨ts, later⟩) (ht : parse tokens = .ok tree)
    (hts : ts ≠ []) {node : Node} (hn : node.TakesNext) (hm : HasNode tree before node) :
    ∃ l, TakesNextAt ts later node l := by
  obtain ⟨rest, l, h1⟩ := (hasNode_iff h (parse_stmts ht) hts (by rintro e rfl; exact hn)).1 hm
  cases node with
  | hai n =>
    generalize hs : Stmts.mk ts later = s at h1
    generalize hr : Read.ok _ _ = r at h1
    cases h1 with
    | hai h2 => cases hs; injection hr with hr _; cases hr; exact ⟨_, .hai rfl h2⟩
    | simple h => cases hr; cases h
    | simpleFail | headFail | switchCases | switchDefault | conditionalYes | conditionalMaybe | conditionalNo =>
      exact absurd hr.symm Fail.read_ne_ok
    | _ => cases hr
  | howIzI t name params body =>
    obtain ⟨l', h1, -⟩ := NodeR.function_iff.1 h1
    exact ⟨l', .function h1⟩
  | wtf t omgs omgWtf =>
    obtain ⟨l', h1, -⟩ := NodeR.switch_iff.1 h1
    exact ⟨l', .switch h1⟩
  | _ => cases hn

-- `VISIBLE x` after `HAI 1.2`, after a function, and after a switch inside a loop.
example :
    (∃ tokens, tokenize chars!"HAI 1.2\nVISIBLE x\nKTHXBYE" = .ok (.ok tokens) ∧ [] ∉ (split tokens).all ∧
      match parse tokens with | .ok [.hai _, .astError (.tooManyTokens [_, _]), .kThxBye _] => True | _ => False) ∧
    (∃ tokens, tokenize chars!"HOW IZ I a\nGTFO\nIF U SAY SO\nVISIBLE x\nKTHXBYE" = .ok (.ok tokens) ∧
      match parse tokens with
      | .ok [.howIzI _ _ _ _, .astError (.tooManyTokens [_, _]), .kThxBye _] => True
      | _ => False) ∧
    ∃ tokens, tokenize chars!"IM IN YR a\nWTF?\nOMG b\nGTFO\nOIC\nVISIBLE x\nIM OUTTA YR a" = .ok (.ok tokens) ∧
      [] ∉ (split tokens).all ∧
      match parse tokens with
      | .ok [.imInYr _ _ _ _ [.wtf _ _ _, .astError (.tooManyTokens [_, _])] _] => True
      | _ => False := by
  refine ⟨⟨_, rfl, by decide +kernel, ?_⟩, ⟨_, rfl, ?_⟩, ⟨_, rfl, by decide +kernel, ?_⟩⟩ <;> exact trivial

-- An empty statement after `HAI 1.2`.
example : ∃ tokens, tokenize chars!"HAI 1.2\n..., VISIBLE x" = .ok (.ok tokens) ∧
    match parse tokens with | .ok [.hai _, .visible _] => True | _ => False := by
  refine ⟨_, rfl, ?_⟩
  exact trivial

/-! ## C44: blocks that are not closed -/

/-- For the examples. -/
theorem notFirst_all {L : List (List Token)} {k : Keyword} (h : ∀ st ∈ L, ∀ t ∈ st.head?, ¬ t.Is k) :
    ∀ st ∈ L, NotFirst k st := by
  intro st hst t r he
  exact h st hst t (by rw [he]; rfl)

/-- **C44** At each statement of the program: the tree has the error "`IM OUTTA YR` is missing" there, with the
opening token, iff the statement is the header of a loop whose body runs to the end of the program or to an empty
statement. -/
theorem C44_loop_iff (h : Reaches (split tokens) before ⟨ts, later⟩) (ht : parse tokens = .ok tree)
    (hts : ts ≠ []) (t : Token) :
    HasNode tree before (.astError (.imInYr (.missingImOuttaYr t))) ↔ LoopOpen ts later t := by
  rw [hasError_iff h (parse_stmts ht) hts, NodeR.loopOpen_iff]

-- A loop after another statement, not closed.
example : ∃ tokens tree g ts later, tokenize chars!"GTFO\nIM IN YR a\nx" = .ok (.ok tokens) ∧
    parse tokens = .ok tree ∧ Reaches (split tokens) [.gtfo g] ⟨ts, later⟩ ∧ ts ≠ [] ∧
    ∃ t, HasNode tree [.gtfo g] (.astError (.imInYr (.missingImOuttaYr t))) :=
  ⟨_, _, _, _, _, rfl, rfl, reaches_second rfl rfl (by decide +kernel), by decide +kernel, _, _, rfl⟩

/-- **C44** At each statement of the program: the tree has the error "the closing token is missing" there, with the
opening token, iff the statement is the header of a function, conditional or switch that runs to the end of the
program or to an empty statement. -/
theorem C44_block_iff (h : Reaches (split tokens) before ⟨ts, later⟩) (ht : parse tokens = .ok tree)
    (hts : ts ≠ []) (t : Token) :
    HasNode tree before (.astError (.missingBlockClosingToken t)) ↔
      FunctionOpen ts later t ∨ ConditionalOpen ts later t ∨ SwitchOpen ts later t := by
  rw [hasError_iff h (parse_stmts ht) hts, NodeR.open_iff]

-- A conditional after another statement, not closed.
example : ∃ tokens tree g ts later, tokenize chars!"GTFO\nO RLY?\nYA RLY\nx" = .ok (.ok tokens) ∧
    parse tokens = .ok tree ∧ Reaches (split tokens) [.gtfo g] ⟨ts, later⟩ ∧ ts ≠ [] ∧
    ∃ t, HasNode tree [.gtfo g] (.astError (.missingBlockClosingToken t)) :=
  ⟨_, _, _, _, _, rfl, rfl, reaches_second rfl rfl (by decide +kernel), by decide +kernel, _, _, rfl⟩

/-- **C44** These errors anywhere in the tree come from such statements. -/
theorem C44_anywhere (ht : parse tokens = .ok tree) {b : Block} (hb : BlockIn b tree) (t : Token) :
    (.astError (.imInYr (.missingImOuttaYr t)) ∈ b →
      ∃ first ts later, (split tokens).all = first ++ ts :: later ∧ LoopOpen ts later t) ∧
    (.astError (.missingBlockClosingToken t) ∈ b →
      ∃ first ts later, (split tokens).all = first ++ ts :: later ∧
        (FunctionOpen ts later t ∨ ConditionalOpen ts later t ∨ SwitchOpen ts later t)) := by
  constructor
  · intro hn
    rcases parseStmts_nodes (parse_stmts ht) hb hn with ⟨e, h, h1⟩ | ⟨_, _, _, _, _, h⟩
    · cases h
      rcases h1 with ⟨c, h⟩ | ⟨ts, later, s', -, ⟨first, h2⟩, h3⟩
      · cases h
      · exact ⟨first, ts, later, h2.symm, NodeR.loopOpen_iff.1 ⟨s', h3⟩⟩
    · exact h.noErrorNode.elim
  · intro hn
    rcases parseStmts_nodes (parse_stmts ht) hb hn with ⟨e, h, h1⟩ | ⟨_, _, _, _, _, h⟩
    · cases h
      rcases h1 with ⟨c, h⟩ | ⟨ts, later, s', -, ⟨first, h2⟩, h3⟩
      · cases h
      · exact ⟨first, ts, later, h2.symm, NodeR.open_iff.1 ⟨s', h3⟩⟩
    · exact h.noErrorNode.elim

example : ∃ tokens tree b t, tokenize chars!"GTFO\nIM IN YR a\nx\n...,\nOIC" = .ok (.ok tokens) ∧
    parse tokens = .ok tree ∧ BlockIn b tree ∧ .astError (.imInYr (.missingImOuttaYr t)) ∈ b :=
  ⟨_, _, _, _, rfl, rfl, .self, .tail _ (.head _)⟩

/-- **C44** A loop whose closing keyword starts no later statement is reported with its opening token. -/
theorem C44_loop_not_closed (h : Reaches (split tokens) before ⟨ts, later⟩) (ht : parse tokens = .ok tree)
    {t label : Token} {op : Option LoopIterationOperation} {cond : Option LoopCondition}
    (hh : LoopHead ts t label op cond) (hl : ∀ st ∈ later, NotFirst .IM_OUTTA_YR st) :
    HasNode tree before (.astError (.imInYr (.missingImOuttaYr t))) := by
  have hts : ts ≠ [] := by obtain ⟨_, _, rfl, -⟩ := hh; simp
  rw [C44_loop_iff h ht hts]
  obtain ⟨r, hr⟩ := BlockR.total [.IM_OUTTA_YR] (.of later)
  cases r with
  | ok body s' =>
    have := hr.unclosed (by simpa using hl)
    obtain ⟨cur, l⟩ := s'
    cases this
    exact ⟨label, op, cond, body, l, hh, hr⟩
  | error e s' => exact absurd rfl (hr.noError _ _)
  | panic p => exact absurd (.loopPanic (loopHead_iff.2 hh) hr) (reaches_noPanic h (parse_stmts ht))

example : ∃ tokens tree g ts later t label, tokenize chars!"GTFO\nIM IN YR a\nVISIBLE b" = .ok (.ok tokens) ∧
    parse tokens = .ok tree ∧ Reaches (split tokens) [.gtfo g] ⟨ts, later⟩ ∧ LoopHead ts t label none none ∧
    ∀ st ∈ later, NotFirst .IM_OUTTA_YR st := by
  refine ⟨_, _, _, _, _, _, _, rfl, rfl, reaches_second rfl rfl (by decide +kernel), ⟨[], [], rfl, rfl, ⟨_, rfl⟩, .none, .none⟩, ?_⟩
  exact notFirst_all (by decide +kernel)

/-- **C44** A function whose closing keyword starts no later statement is reported with its opening token. -/
theorem C44_function_not_closed (h : Reaches (split tokens) before ⟨ts, later⟩) (ht : parse tokens = .ok tree)
    {t : Token} {name : Identifier} {params : List Identifier} (hh : FunctionHead ts t name params)
    (hl : ∀ st ∈ later, NotFirst .IF_U_SAY_SO st) :
    HasNode tree before (.astError (.missingBlockClosingToken t)) := by
  have hts : ts ≠ [] := by obtain ⟨_, rfl, -⟩ := hh; simp
  rw [C44_block_iff h ht hts]
  obtain ⟨r, hr⟩ := BlockR.total [.IF_U_SAY_SO] (.of later)
  cases r with
  | ok body s' =>
    have := hr.unclosed (by simpa using hl)
    obtain ⟨cur, l⟩ := s'
    cases this
    exact .inl ⟨name, params, body, l, hh, hr⟩
  | error e s' => exact absurd rfl (hr.noError _ _)
  | panic p => exact absurd (.functionPanic (functionHead_iff.2 hh) hr) (reaches_noPanic h (parse_stmts ht))

example : ∃ tokens tree g ts later t name, tokenize chars!"GTFO\nHOW IZ I a\nVISIBLE b" = .ok (.ok tokens) ∧
    parse tokens = .ok tree ∧ Reaches (split tokens) [.gtfo g] ⟨ts, later⟩ ∧ FunctionHead ts t name [] ∧
    ∀ st ∈ later, NotFirst .IF_U_SAY_SO st := by
  refine ⟨_, _, _, _, _, _, ⟨_, none⟩, rfl, rfl, reaches_second rfl rfl (by decide +kernel),
    ⟨[], rfl, rfl, ⟨⟨_, rfl⟩, by simp⟩, .nil⟩, ?_⟩
  exact notFirst_all (by decide +kernel)

/-- **C44** Every loop, function, conditional or switch whose closing keyword starts no later statement gives an
error, whatever its header and its parts are. -/
theorem C44_not_closed {t : Token} {r : List Token} (h : Reaches (split tokens) before ⟨t :: r, later⟩)
    (ht : parse tokens = .ok tree) {o c : Keyword} (hk : (o, c) ∈ openClose) (hto : t.Is o)
    (hl : ∀ st ∈ later, NotFirst c st) : ∃ e, HasNode tree before (.astError e) := by
  rcases reaches_total h (parse_stmts ht) (by simp) with ⟨node, s', h1, -⟩ | ⟨e, s', -, h1⟩
  · obtain ⟨st, h2, u, r', h3, h4⟩ := h1.closed hk hto
    exact absurd h4 (hl st h2 u r' h3)
  · exact ⟨e, h1⟩

-- A loop, a function, a conditional and a switch at the end of the program, not closed.
example :
    (∃ tokens, tokenize chars!"GTFO\nIM IN YR a\nVISIBLE b\nGTFO" = .ok (.ok tokens) ∧
      match parse tokens with | .ok [.gtfo _, .astError (.imInYr (.missingImOuttaYr _))] => True | _ => False) ∧
    (∃ tokens, tokenize chars!"GTFO\nHOW IZ I a\nVISIBLE b\nGTFO" = .ok (.ok tokens) ∧
      match parse tokens with | .ok [.gtfo _, .astError (.missingBlockClosingToken _)] => True | _ => False) ∧
    (∃ tokens, tokenize chars!"GTFO\nO RLY?\nYA RLY\nVISIBLE b\nNO WAI\nGTFO" = .ok (.ok tokens) ∧
      match parse tokens with | .ok [.gtfo _, .astError (.missingBlockClosingToken _)] => True | _ => False) ∧
    ∃ tokens, tokenize chars!"GTFO\nWTF?\nOMG a\nVISIBLE b\nGTFO" = .ok (.ok tokens) ∧
      match parse tokens with | .ok [.gtfo _, .astError (.missingBlockClosingToken _)] => True | _ => False := by
  refine ⟨⟨_, rfl, ?_⟩, ⟨_, rfl, ?_⟩, ⟨_, rfl, ?_⟩, ⟨_, rfl, ?_⟩⟩ <;> exact trivial

-- The hypotheses of the last three theorems, for a loop and a function.
example :
    (∃ tokens, tokenize chars!"IM IN YR a\nVISIBLE b\nGTFO" = .ok (.ok tokens) ∧
      (∀ st ∈ (split tokens).later, NotFirst .IM_OUTTA_YR st) ∧
      ∃ t label, LoopHead (split tokens).cur t label none none) ∧
    ∃ tokens, tokenize chars!"HOW IZ I a\nVISIBLE b\nGTFO" = .ok (.ok tokens) ∧
      (∀ st ∈ (split tokens).later, NotFirst .IF_U_SAY_SO st) ∧
      ∃ t name, FunctionHead (split tokens).cur t name [] := by
  refine ⟨⟨_, rfl, ?_, _, _, [], [], rfl, rfl, ⟨_, rfl⟩, .none, .none⟩,
    ⟨_, rfl, ?_, _, ⟨_, none⟩, [], rfl, rfl, ⟨⟨_, rfl⟩, by simp⟩, .nil⟩⟩
  · exact notFirst_all (by decide +kernel)
  · exact notFirst_all (by decide +kernel)

/-! ## C47: comments -/

/-- **C47** (partial: the claim is false, see `C47_comments_matter`) In a program that is parsed without errors,
comments stand only in statements that start with `HAI`, up to the end or to the empty statement where parsing
ends. -/
theorem C47_error_free_partial (ht : parse tokens = .ok tree) (he : errorFreeBlock tree) :
    ∃ n, stmt tokens n = [] ∧
      ∀ i < n, NoComment (stmt tokens i) ∨
        StartsHai (stmt tokens i) := by
  obtain ⟨L, h1, h2, h3⟩ := (C38_error_free_iff tokens tree).1 ⟨ht, he⟩
  refine ⟨L.length, h3, fun i hi => ?_⟩
  rw [h2 i hi]
  apply h1.comments
  simp [List.getD, hi]

example : ∃ tokens tree, tokenize chars!"HAI 1.2 BTW a" = .ok (.ok tokens) ∧ parse tokens = .ok tree ∧ errorFreeBlock tree := by
  refine ⟨_, _, rfl, rfl, ?_⟩
  simp [errorFreeBlock, Node.ErrorFree]

/-- **C47** A comment that is a statement, or starts one, gives an error with this comment, and the tokens after it are
reported, too. -/
theorem C47_own_statement {c : Token} {r : List Token} (h : Reaches (split tokens) before ⟨c :: r, later⟩)
    (ht : parse tokens = .ok tree) (hc : c.IsComment) :
    ∃ more, tree = before ++ .astError (.unexpectedToken c) :: (leftoverNodes r ++ more) :=
  reaches_error h (.simpleFail (ts := [c]) (f := .error (.unexpectedToken c)) (comment_fail hc r)) (parse_stmts ht)

example : ∃ tokens tree g c r later, tokenize chars!"GTFO\nOBTW a TLDR VISIBLE" = .ok (.ok tokens) ∧
    parse tokens = .ok tree ∧ Reaches (split tokens) [.gtfo g] ⟨c :: r, later⟩ ∧ c.IsComment ∧ r.length = 1 :=
  ⟨_, _, _, _, _, _, rfl, rfl, reaches_second rfl rfl (by decide +kernel), .inr ⟨_, rfl⟩, rfl⟩

/-- The tokens without the comments. -/
def withoutComments (tokens : List Token) : List Token :=
  tokens.filter fun t => match t.tokenType with
    | .commentSingleLine _ | .commentMultiLine _ => false
    | _ => true

/-- **C47** Comments do change the tree: at the end of a statement they give an error or
a panic; after `HAI` they are part of the version. -/
theorem C47_comments_matter :
    (∃ tokens, tokenize chars!"VISIBLE x BTW y\nGTFO" = .ok (.ok tokens) ∧
      (match parse tokens with | .ok [.astError (.unexpectedToken _), .gtfo _] => True | _ => False) ∧
      match parse (withoutComments tokens) with | .ok [.visible _, .gtfo _] => True | _ => False) ∧
    (∃ tokens, tokenize chars!"x BTW y\nGTFO" = .ok (.ok tokens) ∧
      (match parse tokens with | .panic .unreachableStatement => True | _ => False) ∧
      match parse (withoutComments tokens) with | .ok [.expression _, .gtfo _] => True | _ => False) ∧
    (∃ tokens, tokenize chars!"GTFO BTW y\nGTFO" = .ok (.ok tokens) ∧
      (match parse tokens with | .ok [.gtfo _, .astError (.tooManyTokens [_]), .gtfo _] => True | _ => False) ∧
      match parse (withoutComments tokens) with | .ok [.gtfo _, .gtfo _] => True | _ => False) ∧
    ∃ tokens, tokenize chars!"HAI BTW y\n" = .ok (.ok tokens) ∧
      (match parse tokens with | .ok [.hai ⟨_, [_]⟩] => True | _ => False) ∧
      match parse (withoutComments tokens) with | .ok [.hai ⟨_, []⟩] => True | _ => False := by
  refine ⟨⟨_, rfl, ?_, ?_⟩, ⟨_, rfl, ?_, ?_⟩, ⟨_, rfl, ?_, ?_⟩, ⟨_, rfl, ?_, ?_⟩⟩ <;> exact trivial

-- A program without errors that has a comment after `HAI`.
example : ∃ tokens tree, tokenize chars!"HAI 1.2 BTW y\n" = .ok (.ok tokens) ∧ parse tokens = .ok tree ∧
    errorFreeBlock tree ∧ ∃ t ∈ tokens, t.IsComment := by
  refine ⟨_, _, rfl, rfl, ⟨trivial, trivial⟩, _, List.mem_cons_of_mem _ (List.mem_cons_of_mem _ List.mem_cons_self),
    .inl ⟨_, rfl⟩⟩

-- A comment on a line of its own.
example : ∃ tokens tree, tokenize chars!"BTW y\nGTFO" = .ok (.ok tokens) ∧ parse tokens = .ok tree ∧
    ∃ c r, (split tokens).cur = c :: r ∧ c.IsComment :=
  ⟨_, _, rfl, rfl, _, _, rfl, .inl ⟨_, rfl⟩⟩

end

end Lol
