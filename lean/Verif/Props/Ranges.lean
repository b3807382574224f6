import Verif.Parser.RangeLemmas
import Verif.Props.Cut
import Verif.Props.ParserTree

/-! # The text under a range (C75) -/

namespace Lol

/-- There is only one such text. -/
theorem TextUnder.unique {code txt txt' : Str} {r : Position × Position} (h : TextUnder code r txt)
    (h' : TextUnder code r txt') : txt = txt' := by
  obtain ⟨pre, post, h1, h2, h3⟩ := h
  obtain ⟨pre', post', h4, h5, h6⟩ := h'
  obtain ⟨rfl, h7⟩ := append_inj_utf8 (h1.symm.trans h4) (by omega)
  refine (append_inj_utf8 h7 ?_).1
  rw [utf8Len_append] at h3 h6
  omega

/-- What is parsed from the statement `x` alone is, up to positions, parsed from its text. -/
theorem part_alone {code : Str} {ts x : List Token} {k : Nat} {range : Position × Position}
    (h : tokenize code = .ok (.ok ts)) (hx : x <:+: stmt ts k) (hr : SpansToks range x) :
    ∃ txt, TextUnder code range txt ∧ ((∀ t ∈ x, t.Movable) → ∀ node, NodeG [x] node → node.ErrorFree →
      ∃ y, tokenizeAndParse (txt ++ ['\n']) = .ok (.ok [y]) ∧ y.map Token.unplaced = node.map Token.unplaced) := by
  obtain ⟨first, last, h1, h2, rfl⟩ := hr
  have hne : x ≠ [] := by
    rintro rfl
    cases h1
  obtain ⟨a, mid, c, g1, g2, g3, g4⟩ := part_segment hx hne
  rw [h1] at g2
  rw [h2] at g3
  have m1 : first ∈ ts := by
    rw [g1]
    exact List.mem_append_right _ (List.mem_append_left _ (List.mem_of_mem_head? (by rw [g2]; rfl)))
  have m2 : last ∈ ts := by
    rw [g1]
    exact List.mem_append_right _ (List.mem_append_left _ (List.mem_of_getLast? g3))
  obtain ⟨pre, lex, post, e1, -, e2, -⟩ := C05_offsets_exact h m1
  obtain ⟨pre', lex', post', e3, -, -, -, e4, -⟩ := C05_offsets_exact h m2
  have hle : first.range.start.bytes ≤ last.range.stop.bytes := by
    obtain ⟨o1, o2⟩ := C04_ranges_ordered h
    obtain ⟨u, m, rfl⟩ : ∃ u m, mid = u :: m := by
      cases mid with
      | nil => cases g2
      | cons u m => exact ⟨u, m, rfl⟩
    cases g2
    rcases List.mem_cons.1 (List.mem_of_getLast? g3) with rfl | hl
    · have := o1 last m2; omega
    · rw [g1] at o2
      have := (List.pairwise_append.1 (List.pairwise_append.1 o2).2.1).1
      have := (List.pairwise_cons.1 this).1 last hl
      have := o1 first m1
      have := o1 last m2
      omega
  obtain ⟨txt, ht⟩ := prefix_of_utf8Len_le (a := pre) (b := lex ++ post) (c := pre' ++ lex') (d := post')
    (by rw [← e3, e1]; simp) (by omega)
  have hcode : code = pre ++ (txt ++ post') := by
    rw [e3, ht, List.append_assoc]
  refine ⟨txt, ⟨pre, post', hcode, e2, by rw [e4, ht]⟩, fun hm node hn he => ?_⟩
  rw [g1] at h
  obtain ⟨us, first', k1, k2, k3⟩ := C72_tokens h
    ⟨pre, post', first, last, hcode, g2, g3, e2, by rw [e4, ht]⟩ (movable_of_segment g4 hm)
  have hs := steps_of_shift k3 0
  have ha := alone_of_split g4
  have hp : parse mid = .ok [node] :=
    ((C38_error_free_iff mid [node]).2 ⟨[x], .nodes (rest := []) hn .nil, by
      intro i hi
      simp only [List.length_cons, List.length_nil, Nat.zero_add, Nat.lt_one_iff] at hi
      subst hi
      exact ha.1, ha.2 0⟩).1
  have hsame : mapOutcome Token.unplaced (parse us) = mapOutcome Token.unplaced (parse mid) := by
    refine C55_same (f := Token.unplaced) (fun _ => rfl) fun k => ?_
    have hu : ∀ vs : List Token, vs.map Token.unplaced = (vs.map (·.tokenType)).map fun ty =>
        (⟨ty, ⟨⟨0, 0, 0, 0⟩, ⟨0, 0, 0, 0⟩⟩⟩ : Token) := by
      intro vs
      simp [Token.unplaced]
    rw [hu, hu, stmt_steps hs k]
  rw [hp] at hsame
  obtain ⟨y, h7, h8⟩ := mapOutcome_eq_ok hsame
  cases y with
  | nil => simp [mapBlock] at h8
  | cons y ys =>
    cases ys with
    | cons z ys => simp [mapBlock] at h8
    | nil =>
      simp only [mapBlock, List.cons.injEq, and_true] at h8
      refine ⟨y, ?_, h8⟩
      unfold tokenizeAndParse
      rw [k1]
      show Out.bind (parse us) _ = _
      rw [h7]
      rfl

theorem Expr.WF.alone {e : Expr} (h : e.WF) : NodeG [e.toks] (.expression e) := by
  refine .simple ?_
  by_cases hv : ∃ v, e = .value (.variableAccess v)
  · obtain ⟨v, rfl⟩ := hv
    exact .access h rfl
  · exact .expression h e.follow_nil fun v hv' => hv ⟨v, hv'⟩

/-- A node that is no error was read from the statements. -/
theorem node_read {tokens : List Token} {nodes b : Block} {node : Node} (h : parse tokens = .ok nodes)
    (hb : BlockIn b nodes) (hn : node ∈ b) (he : ∀ er, node ≠ .astError er) :
    ∃ s1 s2, s1.In (split tokens) ∧ NodeR s1 (.ok node s2) := by
  rw [parse_eq] at h
  rcases parseStmts_nodes h hb hn with h1 | h1
  · obtain ⟨er, rfl, -⟩ := h1
    exact absurd rfl (he er)
  · exact h1.in

/-! ## C75 -/

/-- **C75** The tokens of an expression, at any depth, stand next to each other in one statement of the source. -/
theorem C75_segment {tokens : List Token} {nodes b : Block} {node : Node} {e x : Expr}
    (h : parse tokens = .ok nodes) (hb : BlockIn b nodes) (hn : node ∈ b) (he : e ∈ node.exprs) (hx : x ∈ e.subs) :
    ∃ k, x.toks <:+: stmt tokens k := by
  obtain ⟨s1, s2, h1, h2⟩ := node_read h hb hn (by rintro er rfl; cases he)
  obtain ⟨k, h3⟩ := partIn_stmt (((h2.exprs_in e he).1).mono h1 e.toks_ne_nil)
  exact ⟨k, (Expr.subs_infix e x hx).trans h3⟩

example : ∃ tokens nodes b node e x, tokenize chars!"IM IN YR l\ny R NOT x\nIM OUTTA YR l" = .ok (.ok tokens) ∧
    parse tokens = .ok nodes ∧ BlockIn b nodes ∧ node ∈ b ∧ e ∈ Node.exprs node ∧ x ∈ Expr.subs e ∧ x ≠ e := by
  refine ⟨_, _, _, _, _, _, rfl, rfl, .inside (.head _) (.head _) .self, .head _, .head _, .tail _ (.head _), ?_⟩
  simp

/-- **C75** The same for variable accesses. -/
theorem C75_access_segment {tokens : List Token} {nodes b : Block} {node : Node} {v : VariableAccess}
    (h : parse tokens = .ok nodes) (hb : BlockIn b nodes) (hn : node ∈ b) (hv : v ∈ node.accesses) :
    ∃ k, v.toks <:+: stmt tokens k := by
  obtain ⟨s1, s2, h1, h2⟩ := node_read h hb hn (by rintro er rfl; cases hv)
  exact partIn_stmt (((h2.accesses_in v hv).1).mono h1 v.toks_ne_nil')

example : ∃ tokens nodes b node v, tokenize chars!"IM IN YR l\nGIMMEH x'Z y\nIM OUTTA YR l" = .ok (.ok tokens) ∧
    parse tokens = .ok nodes ∧ BlockIn b nodes ∧ node ∈ b ∧ v ∈ Node.accesses node ∧ v.toks.length = 3 :=
  ⟨_, _, _, _, _, rfl, rfl, .inside (.head _) (.head _) .self, .head _, .head _, rfl⟩

/-- **C75** The range of an expression of a parsed source marks off a text, and this text, as a program of its own, is
parsed to this expression, up to positions. -/
theorem C75_expression {code : Str} {tokens : List Token} {nodes b : Block} {node : Node} {e x : Expr}
    (hl : tokenize code = .ok (.ok tokens)) (h : parse tokens = .ok nodes) (hb : BlockIn b nodes) (hn : node ∈ b)
    (he : e ∈ node.exprs) (hx : x ∈ e.subs) (hm : ∀ t ∈ x.toks, t.Movable) :
    ∃ txt y, TextUnder code x.range txt ∧ tokenizeAndParse (txt ++ ['\n']) = .ok (.ok [.expression y]) ∧
      y.map Token.unplaced = x.map Token.unplaced := by
  obtain ⟨s1, s2, h1, h2⟩ := node_read h hb hn (by rintro er rfl; cases he)
  obtain ⟨k, h3⟩ := C75_segment h hb hn he hx
  obtain ⟨txt, g1, g2⟩ := part_alone hl h3 x.range_spans
  obtain ⟨y, g3, g4⟩ := g2 hm _ (e.subs_wf (h2.exprs_in e he).2 x hx).1.alone trivial
  cases y with
  | expression y => exact ⟨txt, y, g1, g3, Node.expression.inj g4⟩
  | _ => cases g4

-- The operand of an expression in a loop; another of the nodes of the program is an error.
example : ∃ tokens nodes b node e x, tokenize chars!"IM IN YR l\nx R NOT ...\n SUM OF 2 AN y, GIMMEH 1\nIM OUTTA YR l" =
      .ok (.ok tokens) ∧ parse tokens = .ok nodes ∧ BlockIn b nodes ∧ node ∈ b ∧ e ∈ Node.exprs node ∧
    x ∈ Expr.subs e ∧ (∀ t ∈ x.toks, t.Movable) ∧
    TextUnder chars!"IM IN YR l\nx R NOT ...\n SUM OF 2 AN y, GIMMEH 1\nIM OUTTA YR l" x.range chars!"SUM OF 2 AN y" := by
  refine ⟨_, _, _, _, _, _, rfl, rfl, .inside (.head _) (.head _) .self, .head _, .head _, .tail _ (.head _),
    movable_of (by decide +kernel),
    chars!"IM IN YR l\nx R NOT ...\n ", chars!", GIMMEH 1\nIM OUTTA YR l", by decide +kernel, by decide +kernel,
    by decide +kernel⟩

/-- **C75** The same for variable accesses. -/
theorem C75_access {code : Str} {tokens : List Token} {nodes b : Block} {node : Node} {v : VariableAccess}
    (hl : tokenize code = .ok (.ok tokens)) (h : parse tokens = .ok nodes) (hb : BlockIn b nodes) (hn : node ∈ b)
    (hv : v ∈ node.accesses) (hm : ∀ t ∈ v.toks, t.Movable) :
    ∃ txt w, TextUnder code v.range txt ∧
      tokenizeAndParse (txt ++ ['\n']) = .ok (.ok [.expression (.value (.variableAccess w))]) ∧
      w.map Token.unplaced = v.map Token.unplaced := by
  obtain ⟨s1, s2, h1, h2⟩ := node_read h hb hn (by rintro er rfl; cases hv)
  obtain ⟨k, h3⟩ := C75_access_segment h hb hn hv
  obtain ⟨txt, g1, g2⟩ := part_alone hl h3 v.range_spans
  have hw : (Expr.value (.variableAccess v)).WF := (h2.accesses_in v hv).2
  obtain ⟨y, g3, g4⟩ := g2 hm _ hw.alone trivial
  cases y with
  | expression y =>
    have g5 := Node.expression.inj g4
    cases y with
    | value y =>
      have g6 := Expr.value.inj g5
      cases y with
      | variableAccess w => exact ⟨txt, w, g1, g3, ExprValue.variableAccess.inj g6⟩
      | _ => cases g6
    | _ => cases g5
  | _ => cases g4

-- The variable that a loop counts up.
example : ∃ tokens nodes b node v, tokenize chars!"IM IN YR l UPPIN YR SRS a'Z b TIL x\nGTFO\nIM OUTTA YR l" =
      .ok (.ok tokens) ∧ parse tokens = .ok nodes ∧ BlockIn b nodes ∧ node ∈ b ∧ v ∈ Node.accesses node ∧
    (∀ t ∈ v.toks, t.Movable) ∧
    TextUnder chars!"IM IN YR l UPPIN YR SRS a'Z b TIL x\nGTFO\nIM OUTTA YR l" v.range chars!"SRS a'Z b" := by
  refine ⟨_, _, _, _, _, rfl, rfl, .self, .head _, .head _, movable_of (by decide +kernel),
    chars!"IM IN YR l UPPIN YR ", chars!" TIL x\nGTFO\nIM OUTTA YR l", by decide +kernel, by decide +kernel,
    by decide +kernel⟩

/-- **C75** The same for assignments: their text is parsed to the assignment. -/
theorem C75_assignment {code : Str} {tokens : List Token} {nodes b : Block} {a : VariableAssignment}
    (hl : tokenize code = .ok (.ok tokens)) (h : parse tokens = .ok nodes) (hb : BlockIn b nodes)
    (hn : .variableAssignment a ∈ b) (hm : ∀ t ∈ (Node.variableAssignment a).toks, t.Movable) :
    ∃ txt c, TextUnder code a.range txt ∧
      tokenizeAndParse (txt ++ ['\n']) = .ok (.ok [.variableAssignment c]) ∧
      c.map Token.unplaced = a.map Token.unplaced := by
  obtain ⟨s1, s2, h1, h2⟩ := node_read h hb hn (by rintro er ⟨⟩)
  obtain ⟨v, r, e, rfl, h3, h4⟩ : ∃ v r e, a = ⟨v, e, r⟩ ∧ PartIn s1 (v.toks ++ r :: e.toks) ∧
      NodeG [v.toks ++ r :: e.toks] (.variableAssignment ⟨v, e, r⟩) := by
    generalize hr : Read.ok (Node.variableAssignment a) s2 = x at h2
    cases h2 with
    | simple h2 =>
      cases hr
      cases h2 with
      | assignment g1 g2 g3 g4 =>
        exact ⟨_, _, _, rfl, ⟨_, List.mem_cons_self, (List.prefix_append _ _).isInfix⟩,
          .simple (.assignment g1 g2 g3 (Expr.follow_nil _))⟩
    | simpleFail => exact absurd hr.symm Fail.read_ne_ok
    | headFail => exact absurd hr.symm Fail.read_ne_ok
    | switchCases => exact absurd hr.symm Fail.read_ne_ok
    | switchDefault => exact absurd hr.symm Fail.read_ne_ok
    | conditionalYes => exact absurd hr.symm Fail.read_ne_ok
    | conditionalMaybe => exact absurd hr.symm Fail.read_ne_ok
    | conditionalNo => exact absurd hr.symm Fail.read_ne_ok
    | _ => cases hr
  obtain ⟨k, h5⟩ := partIn_stmt (h3.mono h1 (by simp))
  have hs : SpansToks (VariableAssignment.range ⟨v, e, r⟩) (v.toks ++ r :: e.toks) := by
    obtain ⟨first, last, g1, g2, g3⟩ := C29_assignment_range ⟨v, e, r⟩
    refine ⟨first, last, ?_, ?_, g3⟩
    · rw [List.head?_append]
      simp only at g1
      rw [g1]; rfl
    · rw [List.getLast?_append, List.getLast?_cons]
      simp only at g2
      rw [g2]; rfl
  obtain ⟨txt, g1, g2⟩ := part_alone hl h5 hs
  obtain ⟨y, g3, g4⟩ := g2 hm _ h4 trivial
  cases y with
  | variableAssignment c => exact ⟨txt, c, g1, g3, Node.variableAssignment.inj g4⟩
  | _ => cases g4

-- An assignment with tokens after it on the line: `parse` reports them, and keeps the assignment before them.
example : ∃ tokens nodes b a, tokenize chars!"GTFO\nx'Z y R ...\n\"one\" y  z\n" = .ok (.ok tokens) ∧
    parse tokens = .ok nodes ∧ BlockIn b nodes ∧ .variableAssignment a ∈ b ∧
    (∀ t ∈ (Node.variableAssignment a).toks, t.Movable) ∧
    TextUnder chars!"GTFO\nx'Z y R ...\n\"one\" y  z\n" a.range chars!"x'Z y R ...\n\"one\"" := by
  refine ⟨_, _, _, _, rfl, rfl, .self, .tail _ (.head _), movable_of (by decide +kernel),
    chars!"GTFO\n", chars!" y  z\n", by decide +kernel, by decide +kernel, by decide +kernel⟩

end Lol
