import Verif.Props.DeleteLines

/-! # Lines put in a loop or a conditional (C105) -/

namespace Lol

theorem bareStmts_empty {L : List (List Token)} : [] ∈ bareStmts L ↔ [] ∈ L := by
  constructor
  · intro h
    obtain ⟨x, hx, he⟩ := List.mem_map.1 h
    rwa [List.map_eq_nil_iff.1 he] at hx
  · exact fun h => List.mem_map.2 ⟨_, h, rfl⟩

/-- A program with lines before and after it that make it a part of one node. -/
theorem BodyText.wrap_lines {p pre post : Str} {b : Block} {x : Node} {tp tq : List Token} (h : BodyText p b)
    (hp : LinesOf pre tp) (hp0 : [] ∉ (split tp).all) (hq : LinesOf post tq) (hq0 : [] ∉ (split tq).all)
    (hx : ∀ M, BlockG M b → NodeG ((split tp).all ++ (M ++ (split tq).all)) x) (hn : ¬ x.TakesNext) :
    ∃ y, BodyText (pre ++ '\n' :: (p ++ '\n' :: post)) [y] ∧ y.map Token.unplaced = x.map Token.unplaced := by
  have hz : ∀ {ts : List Token}, [] ∉ (split ts).all → stmt ts 0 ≠ [] :=
    fun h1 h2 => h1 (h2 ▸ by simp [stmt, Stmts.all])
  obtain ⟨y, h1, h2⟩ := h.wrap_node (x := x) hp (hz hp0) hq.1 (hz hq0) fun M hM =>
    ⟨[], .inl rfl, by simpa using hx M hM⟩
  obtain ⟨_, -, -, hB⟩ := h.stmts
  obtain ⟨ts, g1, g2, -⟩ := h
  obtain ⟨u, k1, k2, k3⟩ := g1.join_stmts (hz g2) hq (hz hq0)
  obtain ⟨v, l1, l2, l3⟩ := hp.join_stmts (hz hp0) k1 k2
  have e : (pre ++ '\n' :: (p ++ '\n' :: post)) ++ ['\n'] = pre ++ '\n' :: (p ++ '\n' :: (post ++ ['\n'])) := by simp
  have l4 := l1.1
  rw [e] at l4
  refine ⟨y, ⟨v, l1, ?_, parse_of_tokenizeAndParse l4 h1, ?_, ?_⟩, h2⟩
  · rw [← bareStmts_empty, l3, k3]
    simp only [List.mem_append, bareStmts_empty]
    rintro (h | h | h)
    · exact hp0 h
    · exact g2 h
    · exact hq0 h
  · have := (hx _ hB).block.errorFree
    rw [← errorFree_bare Token.unplaced] at this ⊢
    simpa [mapBlock, h2] using this
  · intro n hn'
    cases hn'
    show ¬ y.TakesNext
    rw [← Node.takesNext_map Token.unplaced, h2, Node.takesNext_map]
    exact hn

/-- Lines whose statements without positions are one node. -/
theorem BodyText.of_bare {s : Str} {ts : List Token} {x : Node} (h : LinesOf s ts) (h0 : [] ∉ (split ts).all)
    (hx : NodeG (bareStmts (split ts).all) x) (hn : ¬ x.TakesNext) :
    ∃ y, BodyText s [y] ∧ y.map Token.unplaced = x := by
  have hne : bareStmts (split ts).all ≠ [] := by simp [bareStmts, Stmts.all]
  have h6 := parseStmts_complete (s := .of (bareStmts (split ts).all)) (s' := ⟨[], []⟩) hx.block ⟨1, by
    rw [Stmts.all_of hne]
    rfl⟩ rfl
  rw [← parse_bare] at h6
  obtain ⟨z, z1, z2⟩ := mapOutcome_eq_ok h6
  obtain ⟨y, rfl⟩ : ∃ y, z = [y] := by
    match z, z2 with
    | [y], _ => exact ⟨y, rfl⟩
    | [], h => simp [mapBlock] at h
    | _ :: _ :: _, h => simp [mapBlock] at h
  have e : y.map Token.unplaced = x := by simpa [mapBlock] using z2
  refine ⟨y, ⟨ts, h, h0, z1, ?_, ?_⟩, e⟩
  · rw [← errorFree_bare Token.unplaced, z2]
    exact hx.block.errorFree
  · intro n hn'
    cases hn'
    show ¬ y.TakesNext
    rw [← Node.takesNext_map Token.unplaced, e]
    exact hn

/-! ## C105 -/

/-- **C105** A program without errors between the header and the end of a loop, each a line of its own, is such a
program again, the loop with the program as its body. -/
theorem C105_loop {pre p post : Str} {b : Block} {st : List Token} {t label c e : Token}
    {op : Option LoopIterationOperation} {cond : Option LoopCondition} (hpre : StatementText pre st)
    (hh : LoopHead st t label op cond) (h : BodyText p b) (hpost : StatementText post [c, e]) (hc : c.Is .IM_OUTTA_YR)
    (he : e.IsIdent) :
    ∃ n, BodyText (pre ++ '\n' :: (p ++ '\n' :: post)) [n] ∧
      n.map Token.unplaced = (Node.imInYr t label op cond b e).map Token.unplaced := by
  obtain ⟨tp, h1, h2⟩ := hpre
  obtain ⟨tq, h1', h2'⟩ := hpost
  obtain ⟨ops, conds, rfl, h3, h4, h5, h6⟩ := hh
  exact h.wrap_lines (x := .imInYr t label op cond b e) h1 (by simp [h2]) h1' (by simp [h2'])
    (fun M hM => by rw [h2, h2']; exact .loop h3 h4 h5 h6 hM hc he) id

/-- **C105** Between `O RLY?`, `YA RLY` and `OIC` it is a conditional with the program as its branch. -/
theorem C105_conditional {pre p post : Str} {tp : List Token} {b : Block} {t q t' c : Token} (hpre : LinesOf pre tp)
    (htp : (split tp).all = [[t, q], [t']]) (ht : t.Is .O_RLY) (hq : q.IsQuestion) (ht' : t'.Is .YA_RLY)
    (h : BodyText p b) (hpost : StatementText post [c]) (hc : c.Is .OIC) :
    ∃ n, BodyText (pre ++ '\n' :: (p ++ '\n' :: post)) [n] ∧
      n.map Token.unplaced = (Node.oRly t (some (.mk t' b)) none []).map Token.unplaced := by
  obtain ⟨tq, h1', h2'⟩ := hpost
  refine h.wrap_lines (x := .oRly t (some (.mk t' b)) none []) hpre (by simp [htp]) h1' (by simp [h2'])
    (fun M hM => ?_) id
  rw [htp, h2']
  have := NodeG.conditional ht hq (.some ht' hM) .nil .none hc
  simpa using this

/-- **C105** Two programs are the two branches of a conditional. -/
theorem C105_both {pre p mid p' post : Str} {tp : List Token} {b b' : Block} {t q t' t'' c : Token}
    (hpre : LinesOf pre tp) (htp : (split tp).all = [[t, q], [t']]) (ht : t.Is .O_RLY) (hq : q.IsQuestion)
    (ht' : t'.Is .YA_RLY) (h : BodyText p b) (hmid : StatementText mid [t'']) (ht'' : t''.Is .NO_WAI)
    (h' : BodyText p' b') (hpost : StatementText post [c]) (hc : c.Is .OIC) :
    ∃ n, BodyText (pre ++ '\n' :: (p ++ '\n' :: (mid ++ '\n' :: (p' ++ '\n' :: post)))) [n] ∧
      n.map Token.unplaced = (Node.oRly t (some (.mk t' b)) (some (.mk t'' b')) []).map Token.unplaced := by
  have hz : ∀ {ts : List Token}, [] ∉ (split ts).all → stmt ts 0 ≠ [] :=
    fun h1 h2 => h1 (h2 ▸ by simp [stmt, Stmts.all])
  obtain ⟨tm, m1, m2⟩ := hmid
  obtain ⟨tq, q1, q2⟩ := hpost
  obtain ⟨ts, a1, a2, a3, a4⟩ := h.bare
  obtain ⟨ts', b1, b2, b3, b4⟩ := h'.bare
  obtain ⟨u1, c1, c2, c3⟩ := b1.join_stmts b2 q1 (hz (by simp [q2]))
  obtain ⟨u2, d1, d2, d3⟩ := m1.join_stmts (hz (by simp [m2])) c1 c2
  obtain ⟨u3, e1, e2, e3⟩ := a1.join_stmts a2 d1 d2
  obtain ⟨u4, f1, f2, f3⟩ := hpre.join_stmts (hz (by simp [htp])) e1 e2
  rw [e3, d3, c3, htp, m2, q2] at f3
  have hne : ∀ ts : List Token, bareStmts (split ts).all ≠ [] := fun ts => by simp [bareStmts, Stmts.all]
  refine BodyText.of_bare f1 ?_ ?_ ?_
  · rw [← bareStmts_empty, f3]
    simp only [List.mem_append]
    rintro (h | h | h | h | h)
    · simp [bareStmts] at h
    · exact a3 h
    · simp [bareStmts] at h
    · exact b3 h
    · simp [bareStmts] at h
  · rw [f3]
    have := NodeG.conditional (t := t.unplaced) (q := q.unplaced) ht hq
      (.some (t := t'.unplaced) ht' (a4.blockG (hne ts))) .nil
      (.some (t := t''.unplaced) ht'' (b4.blockG (hne ts'))) (c := c.unplaced) hc
    simpa [bareStmts, Node.map, mapYaRly, mapNoWai, mapMebbes] using this
  · exact id

/-- **C105** So in a source without errors lines that are a program can be put in a loop where they stand, and taken out
of one: the other source has a tree without errors, and positions aside the trees are the same (when the place is after
an empty statement that ends the program) or differ exactly in the loop. -/
theorem C105_into_loop {a b pre m post : Str} {x y : Block} {ta st : List Token} {t label c e : Token}
    {op : Option LoopIterationOperation} {cond : Option LoopCondition} (ha : LinesOf a ta) (hpre : StatementText pre st)
    (hh : LoopHead st t label op cond) (hm : BodyText m y) (hpost : StatementText post [c, e]) (hc : c.Is .IM_OUTTA_YR)
    (he : e.IsIdent) (h : tokenizeAndParse (a ++ '\n' :: (m ++ '\n' :: b)) = .ok (.ok x)) (hx : errorFreeBlock x) :
    ∃ x', tokenizeAndParse (a ++ '\n' :: ((pre ++ '\n' :: (m ++ '\n' :: post)) ++ '\n' :: b)) = .ok (.ok x') ∧
      errorFreeBlock x' ∧ (mapBlock Token.unplaced x' = mapBlock Token.unplaced x ∨
        Edited (InPlace y [.imInYr t label op cond y e]) (mapBlock Token.unplaced x) (mapBlock Token.unplaced x')) := by
  obtain ⟨n, hn, e1⟩ := C105_loop hpre hh hm hpost hc he
  obtain ⟨x', h1, h2, h3⟩ := C103_exchange ha hm hn h hx
  have e2 : InPlace y [n] = InPlace y [.imInYr t label op cond y e] := by
    funext u u'
    simp only [InPlace, mapBlock, e1]
  exact ⟨x', h1, h2, e2 ▸ h3⟩

/-- **C105** The source with the loop is without errors just when the one without it is. -/
theorem C105_loop_iff {a b pre m post : Str} {y : Block} {ta st : List Token} {t label c e : Token}
    {op : Option LoopIterationOperation} {cond : Option LoopCondition} (ha : LinesOf a ta) (hpre : StatementText pre st)
    (hh : LoopHead st t label op cond) (hm : BodyText m y) (hpost : StatementText post [c, e]) (hc : c.Is .IM_OUTTA_YR)
    (he : e.IsIdent) :
    Accepted (a ++ '\n' :: ((pre ++ '\n' :: (m ++ '\n' :: post)) ++ '\n' :: b)) ↔
      Accepted (a ++ '\n' :: (m ++ '\n' :: b)) := by
  obtain ⟨n, hn, -⟩ := C105_loop hpre hh hm hpost hc he
  exact C103_iff ha hn hm

/-- **C105** The same for a conditional. -/
theorem C105_into_conditional {a b pre m post : Str} {x y : Block} {ta tp : List Token} {t q t' c : Token}
    (ha : LinesOf a ta) (hpre : LinesOf pre tp) (htp : (split tp).all = [[t, q], [t']]) (ht : t.Is .O_RLY)
    (hq : q.IsQuestion) (ht' : t'.Is .YA_RLY) (hm : BodyText m y) (hpost : StatementText post [c]) (hc : c.Is .OIC)
    (h : tokenizeAndParse (a ++ '\n' :: (m ++ '\n' :: b)) = .ok (.ok x)) (hx : errorFreeBlock x) :
    ∃ x', tokenizeAndParse (a ++ '\n' :: ((pre ++ '\n' :: (m ++ '\n' :: post)) ++ '\n' :: b)) = .ok (.ok x') ∧
      errorFreeBlock x' ∧ (mapBlock Token.unplaced x' = mapBlock Token.unplaced x ∨
        Edited (InPlace y [.oRly t (some (.mk t' y)) none []]) (mapBlock Token.unplaced x)
          (mapBlock Token.unplaced x')) := by
  obtain ⟨n, hn, e1⟩ := C105_conditional hpre htp ht hq ht' hm hpost hc
  obtain ⟨x', h1, h2, h3⟩ := C103_exchange ha hm hn h hx
  have e2 : InPlace y [n] = InPlace y [.oRly t (some (.mk t' y)) none []] := by
    funext u u'
    simp only [InPlace, mapBlock, e1]
  exact ⟨x', h1, h2, e2 ▸ h3⟩

/-- **C105** The source with the conditional is without errors just when the one without it is. -/
theorem C105_conditional_iff {a b pre m post : Str} {y : Block} {ta tp : List Token} {t q t' c : Token}
    (ha : LinesOf a ta) (hpre : LinesOf pre tp) (htp : (split tp).all = [[t, q], [t']]) (ht : t.Is .O_RLY)
    (hq : q.IsQuestion) (ht' : t'.Is .YA_RLY) (hm : BodyText m y) (hpost : StatementText post [c]) (hc : c.Is .OIC) :
    Accepted (a ++ '\n' :: ((pre ++ '\n' :: (m ++ '\n' :: post)) ++ '\n' :: b)) ↔
      Accepted (a ++ '\n' :: (m ++ '\n' :: b)) := by
  obtain ⟨n, hn, -⟩ := C105_conditional hpre htp ht hq ht' hm hpost hc
  exact C103_iff ha hn hm

/-- **C105** And a second branch can be added to a conditional and taken away where it stands. -/
theorem C105_both_iff {a b pre m mid m' post : Str} {y z : Block} {ta tp : List Token} {t q t' t'' c : Token}
    (ha : LinesOf a ta) (hpre : LinesOf pre tp) (htp : (split tp).all = [[t, q], [t']]) (ht : t.Is .O_RLY)
    (hq : q.IsQuestion) (ht' : t'.Is .YA_RLY) (hm : BodyText m y) (hmid : StatementText mid [t''])
    (ht'' : t''.Is .NO_WAI) (hm' : BodyText m' z) (hpost : StatementText post [c]) (hc : c.Is .OIC) :
    Accepted (a ++ '\n' :: ((pre ++ '\n' :: (m ++ '\n' :: (mid ++ '\n' :: (m' ++ '\n' :: post)))) ++ '\n' :: b)) ↔
      Accepted (a ++ '\n' :: ((pre ++ '\n' :: (m ++ '\n' :: post)) ++ '\n' :: b)) := by
  obtain ⟨n, hn, -⟩ := C105_both hpre htp ht hq ht' hm hmid ht'' hm' hpost hc
  obtain ⟨n', hn', -⟩ := C105_conditional hpre htp ht hq ht' hm hpost hc
  exact C103_iff ha hn hn'

/-- **C105** In a source with errors, after a statement, the lines can be put in a loop as well: the source has a tree
just when the one without the loop has one, and then they have the same errors in the same order. -/
theorem C105_errors {a l b pre m post : Str} {y : Block} {ta st : List Token} {t label c e : Token}
    {op : Option LoopIterationOperation} {cond : Option LoopCondition} (ha : LinesOf a ta) (hl : OneStatement l)
    (hpre : StatementText pre st) (hh : LoopHead st t label op cond) (hm : BodyText m y)
    (hpost : StatementText post [c, e]) (hc : c.Is .IM_OUTTA_YR) (he : e.IsIdent) (es : List ASTError) :
    (∃ x, tokenizeAndParse (a ++ '\n' :: (l ++ '\n' :: ((pre ++ '\n' :: (m ++ '\n' :: post)) ++ '\n' :: b))) =
        .ok (.ok x) ∧ (errorsBlock x).map (ASTError.map Token.unplaced) = es) ↔
      ∃ x, tokenizeAndParse (a ++ '\n' :: (l ++ '\n' :: (m ++ '\n' :: b))) = .ok (.ok x) ∧
        (errorsBlock x).map (ASTError.map Token.unplaced) = es := by
  obtain ⟨n, hn, -⟩ := C105_loop hpre hh hm hpost hc he
  constructor <;> rintro ⟨x, h1, h2⟩
  · obtain ⟨x', h3, h4⟩ := C104_exchange ha hl hn hm h1
    exact ⟨x', h3, h4.trans h2⟩
  · obtain ⟨x', h3, h4⟩ := C104_exchange ha hl hm hn h1
    exact ⟨x', h3, h4.trans h2⟩

-- `GTFO` in the body of a loop, the lines of a loop to put around it, and those of a conditional.
example : (∃ ta, LinesOf chars!"IM IN YR l" ta) ∧ (∃ y, BodyText chars!"GTFO" y) ∧
    (∃ x, tokenizeAndParse (chars!"IM IN YR l" ++ '\n' :: (chars!"GTFO" ++ '\n' :: chars!"IM OUTTA YR l")) =
        .ok (.ok x) ∧ errorFreeBlock x) := by
  refine ⟨⟨_, rfl, by decide +kernel⟩,
    ⟨_, _, ⟨rfl, by decide +kernel⟩, by decide +kernel, rfl, by simp [errorFreeBlock, Node.ErrorFree], ?_⟩,
    ⟨_, rfl, by simp [errorFreeBlock, Node.ErrorFree]⟩⟩
  intro n hn
  cases hn
  exact id

example : ∃ t l c e, StatementText chars!"IM IN YR k" [t, l] ∧ LoopHead [t, l] t l none none ∧
    StatementText chars!"IM OUTTA YR k" [c, e] ∧ c.Is .IM_OUTTA_YR ∧ e.IsIdent := by
  obtain ⟨t, l, h⟩ : ∃ t l, LinesOf chars!"IM IN YR k" [t, l] := ⟨_, _, rfl, by decide +kernel⟩
  obtain ⟨c, e, h'⟩ : ∃ c e, LinesOf chars!"IM OUTTA YR k" [c, e] := ⟨_, _, rfl, by decide +kernel⟩
  refine ⟨t, l, c, e, ⟨_, h, ?_⟩, ⟨[], [], rfl, ?_⟩, ⟨_, h', ?_⟩, ?_⟩
  · have := h.1
    cases this
    decide +kernel
  · have := h.1
    cases this
    exact ⟨rfl, ⟨_, rfl⟩, .none, .none⟩
  · have := h'.1
    cases this
    decide +kernel
  · have := h'.1
    cases this
    exact ⟨rfl, _, rfl⟩

example : ∃ tp t q t' c, LinesOf chars!"O RLY?\nYA RLY" tp ∧ (split tp).all = [[t, q], [t']] ∧ t.Is .O_RLY ∧
    q.IsQuestion ∧ t'.Is .YA_RLY ∧ StatementText chars!"OIC" [c] ∧ c.Is .OIC := by
  obtain ⟨t, q, t', h⟩ : ∃ t q t', LinesOf chars!"O RLY?\nYA RLY" [t, q, t'] := ⟨_, _, _, rfl, by decide +kernel⟩
  obtain ⟨c, h'⟩ : ∃ c, LinesOf chars!"OIC" [c] := ⟨_, rfl, by decide +kernel⟩
  have := h.1
  cases this
  have := h'.1
  cases this
  exact ⟨_, _, _, _, _, h, rfl, rfl, rfl, rfl, ⟨_, h', rfl⟩, rfl⟩

example : ∃ t, StatementText chars!"NO WAI" [t] ∧ t.Is .NO_WAI := by
  obtain ⟨t, h⟩ : ∃ t, LinesOf chars!"NO WAI" [t] := ⟨_, rfl, by decide +kernel⟩
  have := h.1
  cases this
  exact ⟨_, ⟨_, h, rfl⟩, rfl⟩

end Lol
