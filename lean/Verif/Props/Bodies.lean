import Verif.Parser.BodyLemmas
import Verif.Props.Cut
import Verif.Props.EditLine

/-! # Bodies of constructs are programs (C78) -/

namespace Lol

/-- The statements of `own` are `n` statements of `tokens`, from the `i`-th one on. -/
def Stretch (own tokens : List Token) (i n : Nat) : Prop :=
  ∀ k, stmt own k = if k < n then stmt tokens (i + k) else []

theorem Stmts.all_of {m : List (List Token)} (h : m ≠ []) : (Stmts.of m).all = m := by
  cases m with
  | nil => exact absurd rfl h
  | cons a m => rfl

theorem getD_middle {pre m post : List (List Token)} (k : Nat) (h : k < m.length) :
    (pre ++ (m ++ post)).getD (pre.length + k) [] = m.getD k [] := by
  rw [List.getD_eq_getElem?_getD, List.getD_eq_getElem?_getD,
    List.getElem?_append_right (by omega), Nat.add_sub_cancel_left, List.getElem?_append_left h]

/-- Where the statements of a block are. -/
theorem block_stretch {tokens : List Token} {tree b : Block} (h : parse tokens = .ok tree) (hb : BlockIn b tree) :
    ∃ pre m post, (split tokens).all = pre ++ (m ++ post) ∧ m ≠ [] ∧ parseStmts (.of m) = .ok b ∧
      ((b = tree ∧ pre = [] ∧ post = []) ∨ ∃ t r post', post = (t :: r) :: post' ∧ ∃ k ∈ closingKeywords, t.Is k) := by
  rw [parse_eq] at h
  obtain ⟨s', h1⟩ := parseStmts_ok_iff.1 h
  rcases h1.blockIn hb with rfl | h2
  · exact ⟨[], (split tokens).all, [], by simp, by simp [Stmts.all], h, .inl ⟨rfl, rfl, rfl⟩⟩
  · obtain ⟨pre, m, t, r, post, g1, g2, g3, g4⟩ := h2.own
    exact ⟨pre, m, _, g1, g2, g3, .inr ⟨t, r, post, rfl, g4⟩⟩

/-! ## C78 -/

/-- **C78** Every block of a tree is the tree of a program: of the statements from its first one up to the one that ends
it, which starts with a keyword that ends a block or opens the next part. Any token list with these statements is
parsed to this block. -/
theorem C78_body {tokens : List Token} {tree b : Block} (h : parse tokens = .ok tree) (hb : BlockIn b tree) :
    ∃ i n, 0 < n ∧ ((b = tree ∧ i = 0) ∨ ∃ t r, stmt tokens (i + n) = t :: r ∧ ∃ k ∈ closingKeywords, t.Is k) ∧
      ∀ own, Stretch own tokens i n → parse own = .ok b := by
  obtain ⟨pre, m, post, h1, h2, h3, h4⟩ := block_stretch h hb
  refine ⟨pre.length, m.length, List.length_pos_iff.2 h2, ?_, fun own ho => ?_⟩
  · rcases h4 with ⟨rfl, rfl, -⟩ | ⟨t, r, post', rfl, h5⟩
    · exact .inl ⟨rfl, rfl⟩
    · refine .inr ⟨t, r, ?_, h5⟩
      rw [stmt, h1, List.getD_eq_getElem?_getD, List.getElem?_append_right (by omega), Nat.add_sub_cancel_left,
        List.getElem?_append_right (by omega)]
      simp
  · rw [parse_eq, ← h3]
    apply parseStmts_congr
    intro k
    have := ho k
    rw [stmt] at this
    rw [this, Stmts.all_of h2]
    split
    · rename_i hk
      rw [stmt, h1, getD_middle k hk]
    · rename_i hk
      rw [List.getD_eq_getElem?_getD, List.getElem?_eq_none (by omega)]
      rfl

/-- For the examples. -/
theorem stretch_of {own tokens : List Token} {i n : Nat} (h : (split own).all = ((split tokens).all.drop i).take n) :
    Stretch own tokens i n := by
  intro k
  rw [stmt, h, stmt]
  simp only [List.getD_eq_getElem?_getD, List.getElem?_take, List.getElem?_drop]
  split <;> rfl

-- the body of a loop, in which there is an error and a conditional
example : ∃ tokens tree b, tokenize chars!"GTFO\nIM IN YR l\nVISIBLE AN\nO RLY?\nYA RLY, GTFO\nOIC\nIM OUTTA YR l" =
      .ok (.ok tokens) ∧ parse tokens = .ok tree ∧ BlockIn b tree ∧ b.length = 2 ∧
    Stretch ((tokens.drop 3).take 8) tokens 2 5 := by
  obtain ⟨tokens, h⟩ : ∃ ts, tokenize chars!"GTFO\nIM IN YR l\nVISIBLE AN\nO RLY?\nYA RLY, GTFO\nOIC\nIM OUTTA YR l" =
      .ok (.ok ts) := ⟨_, rfl⟩
  refine ⟨tokens, ?_⟩
  rw [h]
  cases h
  exact ⟨_, _, rfl, rfl, .inside (.tail _ (.head _)) (.head _) .self, rfl, stretch_of (by decide +kernel)⟩

/-- **C78** If no statement of the program is empty, the tokens of the block stand next to each other. -/
theorem C78_part {tokens : List Token} {tree b : Block} (h : parse tokens = .ok tree) (hb : BlockIn b tree)
    (hs : [] ∉ (split tokens).all) : ∃ own, own ≠ [] ∧ own <:+: tokens ∧ parse own = .ok b := by
  obtain ⟨pre, m, post, h1, h2, h3, -⟩ := block_stretch h hb
  have hm : ∀ st ∈ m, st ≠ [] := by
    rintro st hst rfl
    exact hs (by rw [h1]; simp [hst])
  obtain ⟨a, mid, c, first, last, g1, g2, g3, g4, -⟩ := stmts_segment h1
    (fun st h => hm st (List.mem_of_mem_head? h)) (fun st h => hm st (List.mem_of_getLast? h)) h2
  refine ⟨mid, ?_, ⟨a, c, by rw [g1, List.append_assoc]⟩, ?_⟩
  · rintro rfl
    exact hm first (List.mem_of_mem_head? g3) (List.head?_eq_none_iff.1 g4.symm)
  · rw [parse_eq, ← h3]
    apply parseStmts_congr
    intro k
    rw [g2, Stmts.all_of h2]

-- the body of a loop with an error in it
example : ∃ tokens tree b, tokenize chars!"GTFO\nIM IN YR l\nVISIBLE AN, x R 1, GTFO\nIM OUTTA YR l" = .ok (.ok tokens) ∧
    parse tokens = .ok tree ∧ BlockIn b tree ∧ b ≠ tree ∧ [] ∉ (split tokens).all := by
  refine ⟨_, _, _, rfl, rfl, .inside (.tail _ (.head _)) (.head _) .self, ?_, by decide +kernel⟩
  intro h
  have := congrArg List.length h
  cases this

/-- The tokens of a piece of a source have a text. -/
theorem textOf_exists {code : Str} {a mid c : List Token} (h : tokenize code = .ok (.ok (a ++ (mid ++ c))))
    (hne : mid ≠ []) : ∃ txt, txt <:+: code ∧ TextOf code mid txt := by
  obtain ⟨first, g2⟩ : ∃ t, mid.head? = some t := by
    cases mid with
    | nil => exact absurd rfl hne
    | cons t mid => exact ⟨t, rfl⟩
  obtain ⟨last, g3⟩ : ∃ t, mid.getLast? = some t := ⟨_, List.getLast?_eq_some_getLast hne⟩
  have m1 : first ∈ a ++ (mid ++ c) :=
    List.mem_append_right _ (List.mem_append_left _ (List.mem_of_mem_head? (by rw [g2]; rfl)))
  have m2 : last ∈ a ++ (mid ++ c) := List.mem_append_right _ (List.mem_append_left _ (List.mem_of_getLast? g3))
  obtain ⟨pre, lex, post, e1, -, e2, -⟩ := C05_offsets_exact h m1
  obtain ⟨pre', lex', post', e3, -, -, -, e4, -⟩ := C05_offsets_exact h m2
  have hle : first.range.start.bytes ≤ last.range.stop.bytes := by
    obtain ⟨o1, o2⟩ := C04_ranges_ordered h
    obtain ⟨u, m, rfl⟩ : ∃ u m, mid = u :: m := by
      cases mid with
      | nil => cases g2
      | cons u m => exact ⟨u, m, rfl⟩
    cases g2
    rcases List.mem_cons.1 (List.mem_of_getLast? g3) with rfl | hl
    · have := o1 last m2; omega
    · have := (List.pairwise_append.1 (List.pairwise_append.1 o2).2.1).1
      have := (List.pairwise_cons.1 this).1 last hl
      have := o1 first m1
      have := o1 last m2
      omega
  obtain ⟨txt, ht⟩ := prefix_of_utf8Len_le (a := pre) (b := lex ++ post) (c := pre' ++ lex') (d := post')
    (by rw [← e3, e1]; simp) (by omega)
  have hcode : code = pre ++ (txt ++ post') := by
    rw [e3, ht, List.append_assoc]
  exact ⟨txt, ⟨pre, post', by rw [hcode, List.append_assoc]⟩, pre, post', first, last, hcode, g2, g3, e2,
    by rw [e4, ht]⟩

/-- **C78** In a source without empty statements the text of a block, cut out, with a newline after it, is a program
with this block as its tree, up to positions. -/
theorem C78_text {code : Str} {tokens : List Token} {tree b : Block} (hl : tokenize code = .ok (.ok tokens))
    (h : parse tokens = .ok tree) (hb : BlockIn b tree) (hs : [] ∉ (split tokens).all)
    (hm : ∀ t ∈ tokens, t.Movable) :
    ∃ txt y, txt <:+: code ∧ tokenizeAndParse (txt ++ ['\n']) = .ok (.ok y) ∧
      mapBlock Token.unplaced y = mapBlock Token.unplaced b := by
  obtain ⟨own, h1, ⟨a, c, h2⟩, h3⟩ := C78_part h hb hs
  rw [List.append_assoc] at h2
  rw [← h2] at hl
  obtain ⟨txt, g1, g2⟩ := textOf_exists hl h1
  obtain ⟨us, first, k1, -, k3⟩ := C72_tokens hl g2 fun t ht => hm t (by rw [← h2]; simp [ht])
  have hsame : mapOutcome Token.unplaced (parse us) = mapOutcome Token.unplaced (parse own) := by
    refine C55_same (f := Token.unplaced) (fun _ => rfl) fun k => ?_
    have hu : ∀ vs : List Token, vs.map Token.unplaced = (vs.map (·.tokenType)).map fun ty =>
        (⟨ty, ⟨⟨0, 0, 0, 0⟩, ⟨0, 0, 0, 0⟩⟩⟩ : Token) := by
      intro vs
      simp [Token.unplaced]
    rw [hu, hu, stmt_steps (steps_of_shift k3 0) k]
  rw [h3] at hsame
  obtain ⟨y, h7, h8⟩ := mapOutcome_eq_ok hsame
  exact ⟨txt, y, g1, tokenizeAndParse_of k1 h7, h8⟩

-- the body of a loop with an error in it
example : ∃ tokens tree b, tokenize chars!"IM IN YR l\nVISIBLE AN, x R 1\nIM OUTTA YR l" = .ok (.ok tokens) ∧
    parse tokens = .ok tree ∧ BlockIn b tree ∧ b.length = 2 ∧ [] ∉ (split tokens).all ∧
    (∀ t ∈ tokens, t.Movable) := by
  obtain ⟨tokens, h⟩ : ∃ ts, tokenize chars!"IM IN YR l\nVISIBLE AN, x R 1\nIM OUTTA YR l" = .ok (.ok ts) := ⟨_, rfl⟩
  refine ⟨tokens, ?_⟩
  rw [h]
  cases h
  exact ⟨_, _, rfl, rfl, .inside (.head _) (.head _) .self, rfl, by decide +kernel, movable_of (by decide +kernel)⟩

/-! ## Programs made to bodies -/

/-- The lines `p` are a program without errors and without empty statements, and its last node does not take the
next statement. -/
def BodyText (p : Str) (b : Block) : Prop :=
  ∃ ts, LinesOf p ts ∧ [] ∉ (split ts).all ∧ parse ts = .ok b ∧ errorFreeBlock b ∧
    ∀ node, b.getLast? = some node → ¬ node.TakesNext

theorem LinesOf.then {a b : Str} {ta tb : List Token} (ha : LinesOf a ta) (hs : stmt ta 0 ≠ [])
    (hb : tokenize b = .ok (.ok tb)) (hb0 : stmt tb 0 ≠ []) :
    ∃ ts, tokenize (a ++ '\n' :: b) = .ok (.ok ts) ∧
      bareStmts (split ts).all = bareStmts (split ta).all ++ bareStmts (split tb).all ∧ stmt ts 0 ≠ [] := by
  obtain ⟨ts, h1, h2, h3, -⟩ := ha.append hb
  rw [splitGap_of_stmt hs, splitGap_of_stmt hb0] at h2
  have hta : ta ≠ [] := by rintro rfl; exact hs rfl
  have hl : leading ta = [] := by
    have := split_leading ta
    rw [← splitGap_of_stmt hs] at this
    have := congrArg List.length this
    rw [List.length_append] at this
    exact List.eq_nil_of_length_eq_zero (by omega)
  have h4 : (split ts).all = splitGap ts := by rw [split_leading, h3 hta, hl]; rfl
  have h5 : bareStmts (split ts).all = bareStmts (split ta).all ++ bareStmts (split tb).all := by rw [h4, h2]
  refine ⟨ts, h1, h5, fun h0 => hs ?_⟩
  have e1 := bareStmts_stmt ts 0
  have e2 := bareStmts_stmt ta 0
  rw [h0, h5] at e1
  have : (stmt ta 0).map Token.unplaced = [] := by
    rw [e2]
    exact e1.symm
  exact List.map_eq_nil_iff.1 this

theorem BodyText.stmts {p : Str} {b : Block} (h : BodyText p b) :
    ∃ ts, LinesOf p ts ∧ stmt ts 0 ≠ [] ∧ BlockG (split ts).all b := by
  obtain ⟨ts, h1, h2, h3, h4, h5⟩ := h
  have hall : ∀ k, k < (split ts).all.length → stmt ts k ≠ [] := by
    intro k hk he
    rw [stmt, List.getD_eq_getElem?_getD, List.getElem?_eq_getElem hk] at he
    exact h2 (he ▸ List.getElem_mem hk)
  obtain ⟨M, hM, hlen, hk⟩ := nodesG_of_error_free (n := (split ts).all.length) h3 h4 h5 hall
    (fun k hk => by
      rw [stmt, List.getD_eq_getElem?_getD, List.getElem?_eq_none hk]
      rfl)
  have he : (split ts).all = M := by
    apply List.ext_getElem hlen.symm
    intro k h1 h2
    have := hk k h1
    rwa [stmt, List.getD_eq_getElem?_getD, List.getD_eq_getElem?_getD, List.getElem?_eq_getElem h1,
      List.getElem?_eq_getElem h2] at this
  refine ⟨ts, h1, hall 0 (by simp [Stmts.all]), ?_⟩
  rw [← he] at hM
  generalize hL : (split ts).all = L at hM
  cases hM with
  | nil => simp [Stmts.all] at hL
  | cons hn hr => exact .nodes hn hr

/-- The tree of lines before a program, the program, and lines after it. -/
theorem BodyText.wrap {p pre post : Str} {b x : Block} {tp tq : List Token} (h : BodyText p b) (hp : LinesOf pre tp)
    (hp0 : stmt tp 0 ≠ []) (hq : tokenize post = .ok (.ok tq)) (hq0 : stmt tq 0 ≠ [])
    (hx : ∀ M, BlockG M b → ∃ e, (e = [] ∨ e = [[]]) ∧ BlockG ((split tp).all ++ (M ++ ((split tq).all ++ e))) x) :
    ∃ y, tokenizeAndParse (pre ++ '\n' :: (p ++ '\n' :: post)) = .ok (.ok y) ∧
      mapBlock Token.unplaced y = mapBlock Token.unplaced x := by
  obtain ⟨ts, h1, h2, h3⟩ := h.stmts
  obtain ⟨u1, g1, g2, g3⟩ := h1.then h2 hq hq0
  obtain ⟨u2, k1, k2, k3⟩ := hp.then hp0 g1 g3
  obtain ⟨e, he, hB⟩ := hx _ h3
  generalize hL : (split tp).all ++ ((split ts).all ++ (split tq).all) = L at *
  have hL' : (split tp).all ++ ((split ts).all ++ ((split tq).all ++ e)) = L ++ e := by rw [← hL]; simp
  rw [hL'] at hB
  have hLne : L ≠ [] := by rw [← hL]; simp [Stmts.all]
  have hxp : parseStmts (.of L) = .ok x := by
    obtain ⟨s', s1, s2⟩ := (spans_iff (s := .of L) (L := L ++ e)).2 ⟨by
        intro i hi
        rw [Stmts.all_of hLne]
        rcases he with rfl | rfl
        · rw [List.append_nil]
        · simp only [List.getD_eq_getElem?_getD, List.getElem?_append]
          split
          · rfl
          · rename_i hh
            rw [List.getElem?_eq_none (by omega)]
            have : i - L.length = 0 := by simp at hi; omega
            rw [this]; rfl, by
        rw [Stmts.all_of hLne, List.getD_eq_getElem?_getD, List.getElem?_eq_none (by simp)]
        rfl⟩
    exact parseStmts_complete hB s1 s2
  have hbare : bareStmts (split u2).all = bareStmts L := by
    rw [k2, g2, ← hL]
    simp [bareStmts]
  have hsame : mapOutcome Token.unplaced (parse u2) = mapOutcome Token.unplaced (.ok x) := by
    rw [← hxp, parse_eq, ← parseStmts_map (f := Token.unplaced) (fun _ => rfl),
      ← parseStmts_map (f := Token.unplaced) (fun _ => rfl)]
    apply parseStmts_congr
    intro k
    have hmap : ∀ s : Stmts, (s.map Token.unplaced).all = bareStmts s.all := fun s => rfl
    rw [hmap, hmap, hbare, Stmts.all_of hLne]
  obtain ⟨y, y1, y2⟩ := mapOutcome_eq_ok hsame
  exact ⟨y, tokenizeAndParse_of k1 y1, y2⟩

/-- Alone as a node. -/
theorem NodeG.block {L : List (List Token)} {n : Node} (h : NodeG L n) : BlockG L [n] := by
  have := BlockG.nodes h .nil
  rwa [List.append_nil] at this

theorem BodyText.wrap_node {p pre post : Str} {b : Block} {x : Node} {tp tq : List Token} (h : BodyText p b)
    (hp : LinesOf pre tp) (hp0 : stmt tp 0 ≠ []) (hq : tokenize post = .ok (.ok tq)) (hq0 : stmt tq 0 ≠ [])
    (hx : ∀ M, BlockG M b → ∃ e, (e = [] ∨ e = [[]]) ∧ NodeG ((split tp).all ++ (M ++ ((split tq).all ++ e))) x) :
    ∃ y, tokenizeAndParse (pre ++ '\n' :: (p ++ '\n' :: post)) = .ok (.ok [y]) ∧
      y.map Token.unplaced = x.map Token.unplaced := by
  obtain ⟨y, h1, h2⟩ := h.wrap (x := [x]) hp hp0 hq hq0 fun M hM => by
    obtain ⟨e, he, hn⟩ := hx M hM
    exact ⟨e, he, hn.block⟩
  cases y with
  | nil => simp [mapBlock] at h2
  | cons y ys =>
    cases ys with
    | cons z ys => simp [mapBlock] at h2
    | nil =>
      simp only [mapBlock, List.cons.injEq, and_true] at h2
      exact ⟨y, h1, h2⟩

theorem stmt_zero {ts : List Token} {st : List Token} {l : List (List Token)} (h : (split ts).all = st :: l) :
    stmt ts 0 = st := by
  rw [stmt, h]
  rfl

/-- The text is this one statement. -/
def StatementText (pre : Str) (st : List Token) : Prop := ∃ tp, LinesOf pre tp ∧ (split tp).all = [st]

/-- **C78** Such a program between the header and the end of a loop is the body of the loop. -/
theorem C78_in_loop {pre p : Str} {b : Block} {st : List Token} {t label : Token}
    {op : Option LoopIterationOperation} {cond : Option LoopCondition} (hpre : StatementText pre st)
    (hh : LoopHead st t label op cond) (h : BodyText p b) :
    ∃ c e n, tokenize chars!"IM OUTTA YR loop\n" = .ok (.ok [c, e]) ∧
      tokenizeAndParse (pre ++ '\n' :: (p ++ chars!"\nIM OUTTA YR loop\n")) = .ok (.ok [n]) ∧
      n.map Token.unplaced = (Node.imInYr t label op cond b e).map Token.unplaced := by
  obtain ⟨tp, h1, h2⟩ := hpre
  obtain ⟨ops, conds, rfl, h3, h4, h5, h6⟩ := hh
  obtain ⟨c, e, hq⟩ : ∃ c e, tokenize chars!"IM OUTTA YR loop\n" = .ok (.ok [c, e]) := ⟨_, _, rfl⟩
  have hce : (split [c, e]).all = [[c, e]] ∧ c.Is .IM_OUTTA_YR ∧ e.IsIdent := by
    cases hq
    exact ⟨rfl, rfl, _, rfl⟩
  obtain ⟨n, g1, g2⟩ := h.wrap_node (x := .imInYr t label op cond b e) h1
    (by rw [stmt_zero h2]; simp) hq (by rw [stmt_zero hce.1]; simp) fun M hM =>
      ⟨[], .inl rfl, by rw [h2, hce.1]; exact .loop h3 h4 h5 h6 hM hce.2.1 hce.2.2⟩
  exact ⟨c, e, n, hq, g1, g2⟩

-- two statements in a loop that counts
example : ∃ st t label op cond b, StatementText chars!"IM IN YR a UPPIN YR x TIL y" st ∧
    LoopHead st t label (some op) (some cond) ∧ BodyText chars!"VISIBLE x\n y R 1" b ∧ b.length = 2 := by
  obtain ⟨t, l, u, y, x, w, z, h⟩ : ∃ t l u y x w z, LinesOf chars!"IM IN YR a UPPIN YR x TIL y" [t, l, u, y, x, w, z] :=
    ⟨_, _, _, _, _, _, _, rfl, by decide +kernel, by decide +kernel⟩
  refine ⟨[t, l, u, y, x, w, z], t, l, ⟨.uppin u, ⟨⟨x, none⟩, []⟩⟩, .til (.value (.variableAccess ⟨⟨z, none⟩, []⟩)), _,
    ⟨_, h, ?_⟩, ⟨[u, y, x], [w, z], rfl, ?_⟩,
    ⟨_, ⟨rfl, by decide +kernel, by decide +kernel⟩, by decide +kernel, rfl, ?_, ?_⟩, rfl⟩
  · have := h.1
    cases this
    decide +kernel
  · have := h.1
    cases this
    exact ⟨rfl, ⟨_, rfl⟩, .some (op := .uppin _) (v := ⟨⟨_, none⟩, []⟩) rfl rfl ⟨⟨⟨_, rfl⟩, by simp⟩, by simp⟩,
      .til (e := .value (.variableAccess ⟨⟨_, none⟩, []⟩)) rfl ⟨⟨⟨_, rfl⟩, by simp⟩, by simp⟩⟩
  · repeat' constructor
  · intro node h
    cases h
    exact id

/-- **C78** Between the header and the end of a function it is the body of the function. -/
theorem C78_in_function {pre p : Str} {b : Block} {st : List Token} {t : Token} {name : Identifier}
    {params : List Identifier} (hpre : StatementText pre st) (hh : FunctionHead st t name params) (h : BodyText p b) :
    ∃ n, tokenizeAndParse (pre ++ '\n' :: (p ++ chars!"\nIF U SAY SO\n")) = .ok (.ok [n]) ∧
      n.map Token.unplaced = (Node.howIzI t name params b).map Token.unplaced := by
  obtain ⟨tp, h1, h2⟩ := hpre
  obtain ⟨ps, rfl, h3, h4, h5⟩ := hh
  obtain ⟨c, hq⟩ : ∃ c, tokenize chars!"IF U SAY SO\n" = .ok (.ok [c]) := ⟨_, rfl⟩
  have hc : (split [c]).all = [[c]] ∧ c.Is .IF_U_SAY_SO := by
    cases hq
    exact ⟨rfl, rfl⟩
  exact h.wrap_node (x := .howIzI t name params b) h1
    (by rw [stmt_zero h2]; simp) hq (by rw [stmt_zero hc.1]; simp) fun M hM =>
      ⟨[[]], .inr rfl, by rw [h2, hc.1]; exact .function h3 h4 h5 hM hc.2⟩

-- a function with a parameter
example : ∃ st t name param b, StatementText chars!"HOW IZ I f YR x" st ∧
    FunctionHead st t name [param] ∧ BodyText chars!"VISIBLE x\nFOUND YR x" b ∧ b.length = 2 := by
  obtain ⟨t, f, y, x, h⟩ : ∃ t f y x, LinesOf chars!"HOW IZ I f YR x" [t, f, y, x] :=
    ⟨_, _, _, _, rfl, by decide +kernel, by decide +kernel⟩
  refine ⟨[t, f, y, x], t, ⟨f, none⟩, ⟨x, none⟩, _, ⟨_, h, ?_⟩, ⟨[y, x], rfl, ?_⟩,
    ⟨_, ⟨rfl, by decide +kernel, by decide +kernel⟩, by decide +kernel, rfl, ?_, ?_⟩, rfl⟩
  · have := h.1
    cases this
    decide +kernel
  · have := h.1
    cases this
    exact ⟨rfl, ⟨⟨_, rfl⟩, by simp⟩, .one (i := ⟨_, none⟩) rfl ⟨⟨_, rfl⟩, by simp⟩⟩
  · repeat' constructor
  · intro node h
    cases h
    exact id

/-- **C78** The same for a branch of a conditional. -/
theorem C78_in_conditional {p : Str} {b : Block} (h : BodyText p b) :
    ∃ t t' n, tokenizeAndParse (chars!"O RLY?\nYA RLY\n" ++ (p ++ chars!"\nOIC\n")) = .ok (.ok [n]) ∧
      n.map Token.unplaced = (Node.oRly t (some (.mk t' b)) none []).map Token.unplaced := by
  obtain ⟨t, q, t', hp⟩ : ∃ t q t', LinesOf chars!"O RLY?\nYA RLY" [t, q, t'] :=
    ⟨_, _, _, rfl, by decide +kernel, by decide +kernel⟩
  obtain ⟨c, hq⟩ : ∃ c, tokenize chars!"OIC\n" = .ok (.ok [c]) := ⟨_, rfl⟩
  have hc : (split [c]).all = [[c]] ∧ c.Is .OIC := by
    cases hq
    exact ⟨rfl, rfl⟩
  have ht : (split [t, q, t']).all = [[t, q], [t']] ∧ t.Is .O_RLY ∧ q.IsQuestion ∧ t'.Is .YA_RLY := by
    have := hp.1
    cases this
    exact ⟨rfl, rfl, rfl, rfl⟩
  obtain ⟨n, g1, g2⟩ := h.wrap_node (x := .oRly t (some (.mk t' b)) none []) hp
    (by rw [stmt_zero ht.1]; simp) hq (by rw [stmt_zero hc.1]; simp) fun M hM =>
      ⟨[], .inl rfl, by
        rw [ht.1, hc.1]
        have := NodeG.conditional ht.2.1 ht.2.2.1 (.some ht.2.2.2 hM) .nil .none hc.2
        simpa using this⟩
  exact ⟨t, t', n, g1, g2⟩

-- three statements, one of them on two lines
example : ∃ b, BodyText chars!"VISIBLE x, GTFO\ny R ...\n1" b ∧ b.length = 3 := by
  refine ⟨_, ⟨_, ⟨rfl, by decide +kernel, by decide +kernel⟩, by decide +kernel, rfl, ?_, ?_⟩, rfl⟩
  · repeat' constructor
  · intro node h
    cases h
    exact id

-- The condition on the last node is needed: a switch takes the end of the loop.
example : ∃ n e1 e2, tokenizeAndParse chars!"WTF?\nOMG 1\nGTFO\nOIC\n" = .ok (.ok [n]) ∧ n.TakesNext ∧
    tokenizeAndParse (chars!"IM IN YR a\n" ++ (chars!"WTF?\nOMG 1\nGTFO\nOIC" ++ chars!"\nIM OUTTA YR loop\n")) =
      .ok (.ok (.astError e1 :: e2)) := by
  exact ⟨_, _, _, rfl, trivial, rfl⟩

end Lol
