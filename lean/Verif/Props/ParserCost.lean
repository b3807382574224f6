import Verif.Parser.CostTight
import Verif.Parser.SizeLemmas
import Verif.Parser.SplitLemmas
import Verif.Props.LexerPositions
import Verif.Props.TreePrint

/-! # Properties of `parse`: work and size (C60, C61) -/

namespace Lol

/-! ## C60: the work is linear -/

/-- **C60** `parse` makes at most six calls of the statement iterator for every token and two more, also when it
panics. The bound does not depend on the recursion bound of the model. -/
theorem C60_calls (fuel : Nat) {tokens : List Token} (h : tokens ≠ []) :
    parseCalls fuel tokens ≤ 6 * tokens.length + 2 := by
  unfold parseCalls
  rw [← calls_abs _ _ (new_sound tokens), new_abs]
  have h1 := parseBlock_calls fuel stopRoot (split tokens)
  have h2 := split_weight h
  have h3 : 0 < tokens.length := List.length_pos_iff.2 h
  show cost (parseBlock fuel stopRoot) (split tokens) ≤ _
  unfold Stmts.credit2 blockCost at h1
  split at h1 <;> split at h1 <;> simp_all <;> omega

-- Five tokens in two statements, with an error in the first one
example : ∃ tokens, tokenize chars!"VISIBLE SUM OF x\nGIMMEH y" = .ok (.ok tokens) ∧ tokens ≠ [] ∧ tokens.length = 5 ∧
    parseCalls (parseFuel tokens) tokens = 16 := by
  refine ⟨_, rfl, ?_, ?_, ?_⟩ <;> decide +kernel

-- An empty statement after `IM IN YR x`, made by an ellipsis and a comma
example : ∃ tokens, tokenize chars!"IM IN YR x\n...,GTFO" = .ok (.ok tokens) ∧ tokens.length = 5 ∧
    parseCalls (parseFuel tokens) tokens = 18 := by
  refine ⟨_, rfl, ?_, ?_⟩ <;> decide +kernel

/-- **C60** Without tokens it makes four calls. -/
theorem C60_none : parseCalls (parseFuel []) [] = 4 := rfl

/-- **C60** For a single token it makes at most six. -/
theorem C60_one (fuel : Nat) (t : Token) : parseCalls fuel [t] ≤ 6 := by
  unfold parseCalls
  rw [← calls_abs _ _ (new_sound [t]), new_abs]
  show cost (parseBlock fuel stopRoot) (split [t]) ≤ 6
  by_cases h : t.tokenType = .comma ∨ t.tokenType = .ellipsis
  · have h1 : split [t] = ⟨[], []⟩ := by
      rcases h with h | h <;> simp [split, splitFrom, splitGap, firstLine, h]
    rw [h1]
    cases fuel with
    | zero => exact Nat.zero_le _
    | succ fuel => exact (by decide : 4 ≤ 6)
  · have h1 : split [t] = ⟨[t], []⟩ := by
      simp only [not_or] at h
      simp [split, splitFrom, firstLine, h, Stmts.push]
    rw [h1]
    exact parseBlock_one fuel stopRoot t

-- it does so for a `VISIBLE`
example : ∃ t, tokenize chars!"VISIBLE" = .ok (.ok [t]) ∧ parseCalls (parseFuel [t]) [t] = 6 := by
  refine ⟨_, rfl, ?_⟩; decide +kernel

/-- **C60** The bound is sharp: for every number of tokens from two on there is a source text with that many tokens
for which `parse` makes so many calls. -/
theorem C60_tight (n : Nat) : ∃ text tokens, tokenize text = .ok (.ok tokens) ∧ tokens.length = n + 2 ∧
    parseCalls (parseFuel tokens) tokens = 6 * tokens.length + 2 := by
  have hx : ∀ k ∈ Keyword.all, ¬ k.spelling <+: ['x'] := by decide +kernel
  have hmem : ∀ st ∈ costly n, st = [.keyword .VISIBLE] ∨ st = [.keyword .IM_IN_YR, .identifier ['x']] := by
    intro st hst
    rcases List.mem_append.1 hst with h | h
    · exact .inl (List.eq_of_mem_replicate h)
    · exact .inr (by simpa using h)
  have hline : (costly n).map lineOfStmt = costly n := by
    refine (List.map_congr_left fun st hst => ?_).trans (List.map_id _)
    rcases hmem st hst with rfl | rfl <;> rfl
  obtain ⟨text, h1⟩ := C57_text (lines := costly n) (fun st hst => by
    rcases hmem st hst with rfl | rfl
    · exact ⟨by show Keyword.VISIBLE ∉ hiddenKeywords; decide, trivial⟩
    · exact ⟨by show Keyword.IM_IN_YR ∉ hiddenKeywords; decide, ⟨by decide, by decide, fun k => hx k k.mem_all⟩,
        trivial⟩)
  obtain ⟨tss, h2, h3, h4⟩ := C57_tokenize h1
  obtain ⟨sts, h5, h6⟩ := statementLines_of (L := costly n) (h3.trans hline.symm) h4 (fun st hst => by
    rcases hmem st hst with rfl | rfl <;> simp)
  have hne : tss ≠ [] := by
    rintro rfl
    cases n <;> cases h3
  have h7 : tss.flatten.length = n + 2 := by
    have : (tss.map (List.map (·.tokenType))).flatten.length = (costly n).flatten.length := by rw [h3]
    simpa [costly, List.length_flatten, Function.comp_def] using this
  have h8 : split tss.flatten = .of sts := by
    have := split_lines h5 hne
    rw [← this]; rfl
  refine ⟨text, _, h2, h7, ?_⟩
  unfold parseCalls
  rw [← calls_abs _ _ (new_sound _), new_abs, h8]
  refine (calls_costly h6 ?_).trans ?_
  · unfold parseFuel; omega
  · omega

-- With three tokens: a line `VISIBLE`, and a loop that does not end
example : ∃ tokens, tokenize chars!"VISIBLE\nIM IN YR x" = .ok (.ok tokens) ∧ tokens.length = 3 ∧
    parseCalls (parseFuel tokens) tokens = 20 := by
  refine ⟨_, rfl, ?_, ?_⟩ <;> decide +kernel

/-- **C60** It makes at least one call for every token that the tree holds. -/
theorem C60_least {tokens : List Token} {nodes : Block} (h : parse tokens = .ok nodes) :
    (toksBlock nodes).length ≤ parseCalls (parseFuel tokens) tokens := by
  rw [parse, parseWith_eq] at h
  have hp := parseBlock_post (parseFuel tokens) stopRoot [] (split tokens)
  unfold parseCalls
  rw [← calls_abs _ _ (new_sound tokens), new_abs]
  unfold BlockPost at hp
  cases hr : exec (parseBlock (parseFuel tokens) stopRoot) (split tokens) with
  | ok b s' =>
    rw [hr] at h hp
    cases h
    obtain ⟨used, h1, ⟨h2, -⟩, -⟩ := hp
    have h3 := exec_read _ hr
    have h4 := h2.length_le
    have h5 := congrArg List.length h1.1
    rw [List.length_append] at h5
    show _ ≤ cost (parseBlock (parseFuel tokens) stopRoot) (split tokens)
    omega
  | err e s' => exact absurd hr (parseBlock_no_err _ _ _ _ _)
  | panic p => rw [hr] at h; cases h
  | outOfFuel => rw [hr] at h; cases h

-- `VISIBLE` takes six calls for one token, but the numbers after it take two each
example : (∃ tokens nodes, tokenize chars!"VISIBLE" = .ok (.ok tokens) ∧ parse tokens = .ok nodes ∧
      (toksBlock nodes).length = 1 ∧ parseCalls (parseFuel tokens) tokens = 6) ∧
    ∃ tokens nodes, tokenize chars!"VISIBLE 1 2 3 4 5 6 7 8 " = .ok (.ok tokens) ∧ parse tokens = .ok nodes ∧
      (toksBlock nodes).length = 9 ∧ parseCalls (parseFuel tokens) tokens = 22 := by
  refine ⟨⟨_, _, rfl, rfl, ?_, ?_⟩, ⟨_, _, rfl, rfl, ?_, ?_⟩⟩ <;> decide +kernel

theorem segs_length (segs : List (Str × Str)) (h : ∀ s ∈ segs, s.2 ≠ []) :
    segs.length ≤ (segs.flatMap fun s => s.1 ++ s.2).length := by
  induction segs with
  | nil => exact Nat.le_refl _
  | cons s segs ih =>
    have h1 := ih fun x hx => h x (by simp [hx])
    have h2 : 0 < s.2.length := List.length_pos_iff.2 (h s (by simp))
    simp only [List.flatMap_cons, List.length_append, List.length_cons]; omega

/-- **C60** So for a source text the calls are bounded by its length. -/
theorem C60_source {code : Str} {tokens : List Token} (h : tokenize code = .ok (.ok tokens)) (fuel : Nat) :
    tokens.length ≤ code.length ∧ parseCalls fuel tokens ≤ 6 * code.length + 4 := by
  obtain ⟨segs, tail, h1, -, h3, h4, -⟩ := C04_tokens_tile_source h
  have h5 := segs_length segs fun s hs => (h4 s hs).2
  have h6 : tokens.length ≤ code.length := by
    rw [h1, List.length_append]; omega
  refine ⟨h6, ?_⟩
  by_cases h7 : tokens = []
  · subst h7
    cases fuel with
    | zero => exact Nat.zero_le _
    | succ fuel =>
      have : parseCalls (fuel + 1) [] = 4 := rfl
      omega
  · have := C60_calls fuel h7
    omega

-- A source text without spaces: as many tokens as it can have
example : ∃ tokens, tokenize chars!"x,y!" = .ok (.ok tokens) ∧ tokens.length = 4 := by
  refine ⟨_, rfl, ?_⟩; decide +kernel

/-! ## C61: the tree is not larger than the program -/

/-- **C61** Every error in a tree holds a token. -/
theorem C61_errors {tokens : List Token} {nodes : Block} (h : parse tokens = .ok nodes) {e : ASTError}
    (he : .astError e ∈ allNodes nodes) : e.toks ≠ [] := parse_solid h e he

example : ∃ tokens nodes e, tokenize chars!"IM IN YR l\nx R\nIM OUTTA YR l" = .ok (.ok tokens) ∧ parse tokens = .ok nodes ∧
    .astError e ∈ allNodes nodes ∧ nodes.length = 1 :=
  ⟨_, _, _, rfl, rfl, .tail _ (.head _), rfl⟩

/-- **C61** The tree has at most as many nodes, at any depth, as there are tokens, and at most as many expressions. -/
theorem C61_size {tokens : List Token} {nodes : Block} (h : parse tokens = .ok nodes) :
    (allNodes nodes).length ≤ tokens.length ∧
      (((allNodes nodes).flatMap (·.exprs)).flatMap Expr.subs).length ≤ tokens.length := by
  have h1 := (C22_tokens_sublist tokens nodes h).length_le
  obtain ⟨h2, h3⟩ := allNodes_le nodes (parse_solid h)
  exact ⟨Nat.le_trans h2 h1, Nat.le_trans h3 h1⟩

-- Six tokens, three nodes (a loop, a `GTFO` in it, and an error for the tokens after it), no expression; then six
-- tokens and six expressions
example : (∃ tokens, tokenize chars!"IM IN YR a\nGTFO\nIM OUTTA YR a b" = .ok (.ok tokens) ∧ tokens.length = 6 ∧
      ∃ nodes, parse tokens = .ok nodes ∧ (allNodes nodes).length = 3) ∧
    ∃ tokens, tokenize chars!"SUM OF x NOT SUM OF y z " = .ok (.ok tokens) ∧ tokens.length = 6 ∧
      ∃ nodes, parse tokens = .ok nodes ∧
        (((allNodes nodes).flatMap (·.exprs)).flatMap Expr.subs).length = 6 := by
  refine ⟨⟨_, rfl, ?_, _, rfl, ?_⟩, ⟨_, rfl, ?_, _, rfl, ?_⟩⟩ <;> decide +kernel

private theorem wins_tree : (ts : List Token) → (∀ t ∈ ts, t.tokenType = .value (.boolean true)) →
    wfBlock (ts.map fun t => Node.expression (.value (.literal t))) ∧
    allNodes (ts.map fun t => Node.expression (.value (.literal t))) =
      (ts.map fun t => Node.expression (.value (.literal t))) ∧
    (((ts.map fun t => Node.expression (.value (.literal t))).flatMap (·.exprs)).flatMap Expr.subs).length = ts.length ∧
    printNodes (ts.map fun t => Node.expression (.value (.literal t))) = ts.map fun t => [t]
  | [], _ => ⟨trivial, rfl, rfl, rfl⟩
  | t :: ts, h => by
    obtain ⟨h1, h2, h3, h4⟩ := wins_tree ts fun u hu => h u (by simp [hu])
    refine ⟨⟨.inl ⟨_, h t (by simp)⟩, h1⟩, ?_, ?_, ?_⟩
    · show [_] ++ allNodes _ = _
      rw [h2]; rfl
    · simp only [List.map_cons, List.flatMap_cons, List.flatMap_append, List.length_append, h3, List.length_cons]
      show 1 + _ = _
      omega
    · show [[t]] ++ printNodes _ = _
      rw [h4]; rfl

/-- **C61** Both bounds are reached, for every number of tokens. -/
theorem C61_tight (n : Nat) : ∃ text tokens nodes, tokenize text = .ok (.ok tokens) ∧ parse tokens = .ok nodes ∧
    tokens.length = n + 1 ∧ (allNodes nodes).length = n + 1 ∧
    (((allNodes nodes).flatMap (·.exprs)).flatMap Expr.subs).length = n + 1 := by
  generalize hL : List.replicate (n + 1) [TokenType.value (.boolean true)] = L
  have hmem : ∀ st ∈ L, st = [TokenType.value (.boolean true)] := by
    rw [← hL]
    exact fun st hst => List.eq_of_mem_replicate hst
  have hline : L.map lineOfStmt = L := by
    refine (List.map_congr_left fun st hst => ?_).trans (List.map_id _)
    rw [hmem st hst]; rfl
  obtain ⟨text, h1⟩ := C57_text (lines := L) fun st hst => by
    rw [hmem st hst]
    exact ⟨trivial, trivial⟩
  obtain ⟨tss, h2, h3, h4⟩ := C57_tokenize h1
  obtain ⟨sts, h5, h6⟩ := statementLines_of (L := L) (h3.trans hline.symm) h4 (fun st hst => by
    rw [hmem st hst]; simp)
  have hlen : tss.length = n + 1 := by
    have := congrArg List.length h3
    simpa [← hL] using this
  have hne : tss ≠ [] := by
    rintro rfl
    simp at hlen
  have h7 : tss.flatten.length = n + 1 := by
    have : (tss.map (List.map (·.tokenType))).flatten.length = L.flatten.length := by rw [h3]
    simpa [← hL, List.length_flatten, Function.comp_def] using this
  obtain ⟨us, rfl, hus, hul⟩ : ∃ us : List Token, sts = us.map (fun t => [t]) ∧
      (∀ t ∈ us, t.tokenType = .value (.boolean true)) ∧ us.length = n + 1 := by
    clear h1 h2 h3 h4 h5 hline hmem hlen hne h7
    generalize n + 1 = m at hL ⊢
    subst hL
    induction m generalizing sts with
    | zero => exact ⟨[], by simpa using h6, by simp, rfl⟩
    | succ m ih =>
      rw [List.replicate_succ, List.map_eq_cons_iff] at h6
      obtain ⟨a, r, rfl, ha, hr⟩ := h6
      obtain ⟨us, rfl, i1, i2⟩ := ih r hr
      rw [List.map_eq_singleton_iff] at ha
      obtain ⟨t, rfl, ht⟩ := ha
      refine ⟨t :: us, rfl, ?_, by simp [i2]⟩
      intro u hu
      rcases List.mem_cons.1 hu with rfl | hu
      · exact ht
      · exact i1 u hu
  obtain ⟨g1, g2, g3, g4⟩ := wins_tree us hus
  have hshape : CompleteTree (us.map fun t => Node.expression (.value (.literal t))) := by
    refine ⟨g1, ?_⟩
    rw [g2]
    intro x hx
    obtain ⟨t, -, rfl⟩ := List.mem_map.1 hx
    trivial
  refine ⟨text, _, us.map fun t => Node.expression (.value (.literal t)), h2, C59_print hshape fun k => ?_, h7, ?_, ?_⟩
  · rw [stmt, split_lines h5 hne]
    cases us with
    | nil => simp at hul
    | cons u us =>
      congr 1
      exact g4.symm
  · rw [g2, List.length_map, hul]
  · rw [g2, g3, hul]

-- With two tokens: `WIN` on two lines
example : ∃ tokens nodes, tokenize chars!"WIN\nWIN" = .ok (.ok tokens) ∧ parse tokens = .ok nodes ∧
    tokens.length = 2 ∧ (allNodes nodes).length = 2 := by
  refine ⟨_, _, rfl, rfl, ?_⟩
  decide +kernel

/-- `NOT NOT … NOT x` as a tree, without positions. -/
def notTower : Nat → Expr
  | 0 => .value (.variableAccess ⟨⟨bare (.identifier ['x']), none⟩, []⟩)
  | n + 1 => .unary (.not (bare (.keyword .NOT))) (notTower n)

/-- `O RLY?` inside `O RLY?` … around `GTFO` as a tree, without positions. -/
def ifTower : Nat → Block
  | 0 => [.gtfo (bare (.keyword .GTFO))]
  | n + 1 => [.oRly (bare (.keyword .O_RLY)) (some (.mk (bare (.keyword .YA_RLY)) (ifTower n))) none []]

/-- **C61** There is no bound on the depth: expressions and blocks can be nested as deep as one likes. (The functions
of the crate call themselves once for every level; C70 is about the stack that this takes.) -/
theorem C61_depth (n : Nat) :
    (∃ text nodes, tokenizeAndParse text = .ok (.ok nodes) ∧
      mapBlock Token.unplaced nodes = [.expression (notTower n)]) ∧
    ∃ text nodes, tokenizeAndParse text = .ok (.ok nodes) ∧ mapBlock Token.unplaced nodes = ifTower n := by
  have hk : ∀ k ∈ [Keyword.NOT, .GTFO, .O_RLY, .YA_RLY], k ∉ hiddenKeywords := by decide
  have hx : ∀ k ∈ Keyword.all, ¬ k.spelling <+: ['x'] := by decide +kernel
  constructor
  · have h1 : (notTower n).WF := by
      induction n with
      | zero => exact ⟨⟨⟨_, rfl⟩, by simp⟩, by simp⟩
      | succ n ih => exact ⟨rfl, ih⟩
    have h2 : ∀ t ∈ (notTower n).toks, Writable t.tokenType := by
      induction n with
      | zero =>
        intro t ht
        have ht : t ∈ [bare (.identifier ['x'])] := ht
        rw [List.mem_singleton] at ht
        subst ht
        exact ⟨by decide, by decide, fun k => hx k k.mem_all⟩
      | succ n ih =>
        intro t ht
        rcases List.mem_cons.1 ht with rfl | ht
        · exact hk .NOT (by simp)
        · exact ih h1.2 t ht
    have h3 : mapBlock Token.unplaced [.expression (notTower n)] = [.expression (notTower n)] := by
      have : (notTower n).map Token.unplaced = notTower n := by
        clear h1 h2
        induction n with
        | zero => rfl
        | succ n ih =>
          show Expr.unary _ ((notTower n).map Token.unplaced) = _
          rw [ih]; rfl
      show [Node.expression ((notTower n).map Token.unplaced)] = _
      rw [this]
    have := C59_source (nodes := [.expression (notTower n)]) ⟨⟨h1, trivial⟩, by
      intro x hx
      have hx : x ∈ [Node.expression (notTower n)] := hx
      rw [List.mem_singleton] at hx
      subst hx
      trivial⟩ (by
      intro t ht
      have ht : t ∈ (notTower n).toks ++ [] := ht
      rw [List.append_nil] at ht
      exact h2 t ht)
    rwa [h3] at this
  · have h1 : wfBlock (ifTower n) ∧ (∀ x ∈ allNodes (ifTower n), x.Shape) ∧
        (∀ t ∈ toksBlock (ifTower n), Writable t.tokenType) ∧
        mapBlock Token.unplaced (ifTower n) = ifTower n := by
      induction n with
      | zero =>
        refine ⟨⟨rfl, trivial⟩, ?_, ?_, rfl⟩
        · intro x hx
          have hx : x ∈ [Node.gtfo (bare (.keyword .GTFO))] := hx
          rw [List.mem_singleton] at hx
          subst hx
          trivial
        · intro t ht
          have ht : t ∈ [bare (.keyword .GTFO)] := ht
          rw [List.mem_singleton] at ht
          subst ht
          exact hk .GTFO (by simp)
      | succ n ih =>
        obtain ⟨i1, i2, i3, i4⟩ := ih
        refine ⟨⟨⟨rfl, ⟨rfl, i1⟩, trivial, trivial⟩, trivial⟩, ?_, ?_, ?_⟩
        · intro x hx
          simp only [ifTower, allNodes, Node.nodes, nodesYaRly, nodesMebbes, nodesNoWai, List.append_nil,
            List.mem_cons] at hx
          rcases hx with rfl | hx
          · trivial
          · exact i2 x hx
        · intro t ht
          simp only [ifTower, toksBlock, Node.toks, toksYaRly, toksMebbes, toksNoWai, List.append_nil,
            List.mem_cons] at ht
          rcases ht with rfl | rfl | ht
          · exact hk .O_RLY (by simp)
          · exact hk .YA_RLY (by simp)
          · exact i3 t ht
        · show [Node.oRly _ (some (.mk _ (mapBlock Token.unplaced (ifTower n)))) none []] = _
          rw [i4]; rfl
    have := C59_source ⟨h1.1, h1.2.1⟩ h1.2.2.1
    rwa [h1.2.2.2] at this

-- The second tower with its source text
example : ∃ nodes, tokenizeAndParse chars!"O RLY?\nYA RLY\nO RLY?\nYA RLY\nGTFO\nOIC\nOIC\n" = .ok (.ok nodes) ∧
    mapBlock Token.unplaced nodes = ifTower 2 := ⟨_, rfl, rfl⟩

end Lol
