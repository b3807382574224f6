import Verif.Props.InsertErrors
import Verif.Props.Wrap

/-! # A program with errors of its own as the body of a loop or a conditional (C107) -/

namespace Lol

/-! ## Lemmas -/

/-- The lines are read in a block as they are alone, up to the end of the block. -/
theorem SelfContained.body {m : Str} {y : Block} (h : SelfContained m y) : ∃ tm, LinesOf m tm ∧ stmt tm 0 ≠ [] ∧
    ∀ close : List Keyword, (∀ k ∈ close, k ∈ partKeywords) → ∀ c r E, (∃ k ∈ close, c.Is k) →
      BlockR close (.of (bareStmts (split tm).all ++ (c :: r) :: E)) (.ok (mapBlock Token.unplaced y) ⟨c :: r, E⟩) := by
  obtain ⟨tm, h1, h2, -, h4, h5⟩ := h.bare
  refine ⟨tm, h1, h2, fun close hc c r E hk => ?_⟩
  have hs : Stop close (.of ((c :: r) :: E)) := by
    obtain ⟨k, hk, hk'⟩ := hk
    exact .inr ⟨c, r, rfl, k, hk, hk'⟩
  rcases h4 ((c :: r) :: E) close hc _ (.stop hs) with ⟨ys, rfl, hr⟩ | ⟨p, -, hp, q, hq, hx⟩
  · generalize hz : Read.map _ _ = z at hr
    cases hr with
    | stop _ =>
      have := congrArg (fun r : Read Block => match r with | .ok _ s => s.later.length | _ => 0) hz
      simp [Read.map, Stmts.of, Stmts.all, bareStmts] at this
      omega
    | more _ hb =>
      rw [← hz] at hb
      simpa [Read.map, Stmts.of] using hb
  · exact (h5 hp q hq p hx).elim

private theorem fail_not_ok {α : Type} {a : α} {s s' : Stmts} {f : Fail} (h : .ok a s' = (f.read s : Read α)) : False := by
  cases f <;> cases h

theorem LoopHead.bare {st : List Token} {t label : Token} {op : Option LoopIterationOperation}
    {cond : Option LoopCondition} (hh : LoopHead st t label op cond) : ∃ t' l' op' cond',
      HeadR [] (st.map Token.unplaced) (.loop t' l' op' cond') ∧ ∀ b e,
        (Node.imInYr t label op cond b e).map Token.unplaced =
          .imInYr t' l' op' cond' (mapBlock Token.unplaced b) e.unplaced := by
  obtain ⟨ops, conds, rfl, h3, h4, h5, h6⟩ := hh
  obtain ⟨c, e, g, hc, he, hg⟩ : ∃ c e g : Token, c.Is .IM_OUTTA_YR ∧ e.IsIdent ∧ g.Is .GTFO :=
    ⟨⟨.keyword .IM_OUTTA_YR, label.range⟩, label, ⟨.keyword .GTFO, label.range⟩, rfl, h4, rfl⟩
  have hn : NodeG _ (.imInYr t label op cond [.gtfo g] e) :=
    .loop h3 h4 h5 h6 (.nodes (.simple (.gtfo hg)) .nil) hc he
  obtain ⟨t1, r, a, e1, -, e3⟩ := hn.step_map (f := Token.unplaced) (fun _ => rfl) []
  have e2 := (List.cons.inj e1).1
  generalize hs : Stmts.mk (t1 :: r) _ = s at e3
  generalize hz : Read.ok [_] _ = z at e3
  cases e3 with
  | ok h =>
    rename_i node rest l
    have hnode := (List.cons.inj (Read.ok.inj hz).1).1
    rw [← hnode] at h
    simp only [Node.map] at h
    generalize hw : Read.ok (Node.imInYr _ _ _ _ _ _) _ = w at h
    cases h with
    | simple h => cases hw; nomatch h
    | loop h1 h2 h3 =>
      cases hw
      rw [← (Stmts.mk.inj hs).1, ← e2] at h1
      exact ⟨_, _, _, _, h1, fun _ _ => rfl⟩
    | _ => first | exact (fail_not_ok hw).elim | cases hw
  | empty => cases hz
  | error => cases hz
  | panic => cases hz

/-- Lines that are one node, whatever follows. -/
theorem SelfContained.of_step {s : Str} {ts : List Token} {x : Node} (h1 : LinesOf s ts) (h0 : stmt ts 0 ≠ [])
    (hx : ∀ e, x ≠ .astError e)
    (hr : ∀ E, StepR (.of (bareStmts (split ts).all ++ E)) (.ok [x] (.of E))) :
    ∃ n, SelfContained s [n] ∧ n.map Token.unplaced = x := by
  have b1 := parse_bare ts
  have hr0 := hr []
  rw [List.append_nil] at hr0
  rw [parseStmts_ok_iff.2 ⟨_, .last hr0 (.inl rfl)⟩] at b1
  obtain ⟨z, z1, z2⟩ := mapOutcome_eq_ok b1
  obtain ⟨n, rfl⟩ : ∃ n, z = [n] := by
    match z, z2 with
    | [n], _ => exact ⟨n, rfl⟩
    | [], h => simp [mapBlock] at h
    | _ :: _ :: _, h => simp [mapBlock] at h
  have e : n.map Token.unplaced = x := by simpa [mapBlock] using z2
  have hn : ∀ u, n ≠ .astError u := by
    rintro u rfl
    exact hx _ e.symm
  have hu : ¬ EndsUnclosed [n] := by
    rintro ⟨pre, u, h, -⟩
    have := congrArg List.getLast? h
    simp at this
    exact hn _ this
  refine ⟨n, ⟨⟨ts, h1, h0, ?_⟩, tokenizeAndParse_of h1.1 z1, hu, ?_⟩, e⟩
  · rintro ⟨k, -, -, t, -, h⟩
    exact hn _ (List.mem_singleton.1 h).symm
  · obtain ⟨g0, g1, g2, g3, g4⟩ : ∃ g0 : Token, tokenize chars!"GTFO" = .ok (.ok [g0]) ∧ (split [g0]).all = [[g0]] ∧
      parse [g0] = .ok [.gtfo g0] ∧ g0.Is .GTFO := ⟨_, rfl, rfl, rfl, rfl⟩
    have hg0 : stmt [g0] 0 ≠ [] := by rw [stmt, g2]; simp
    have hts : ts ≠ [] := by
      rintro rfl
      exact h0 rfl
    obtain ⟨f, hf, f1, f2, f3, f4⟩ := h1.followed hts g1 hg0
    obtain ⟨us, u1, u2, -⟩ := h1.then h0 g1 hg0
    rw [f1] at u1
    cases u1
    have b2 := parse_bare (ts ++ [g0].map f)
    rw [u2, g2] at b2
    have hs : StepR (.of [[g0.unplaced]]) (.ok [.gtfo g0.unplaced] (.of [])) :=
      .ok (.simple (ts := [g0.unplaced]) (rest := []) (.gtfo g4))
    have hb : BlockR [] _ _ := .more (hr [[g0.unplaced]]) (by
      rintro (h | ⟨_, _, _, k, hk, _⟩)
      · cases h
      · cases hk) (.last hs (.inl rfl))
    rw [show bareStmts [[g0]] = [[g0.unplaced]] from rfl, parseStmts_of_read hb] at b2
    obtain ⟨w, w1, w2⟩ := mapOutcome_eq_ok b2
    refine ⟨f g0, tokenizeAndParse_of f1 ?_⟩
    rcases C87_kinds (n := (split ts).all.length) (by simp [Stmts.all]) z1 with hk | hk | hk | hk
    · rw [(hk _ _ f2).1 f3, f4, g3]
      rfl
    · exfalso
      obtain ⟨err, k1, k2, -⟩ := hk _ _ f2
      rw [if_neg f3] at k1
      have k3 : stmt ([g0].map f) 1 = [] := by
        have hg : (f g0).tokenType = .keyword .GTFO := by
          rw [hf]
          exact g4
        simp [stmt, split, splitFrom, firstLine, hg, Stmts.push, Stmts.all]
      have := k2 k3
      rw [w1] at this
      cases this
      rw [k1] at w2
      simp [mapBlock, Node.map] at w2
    · exfalso
      have := hk _ _ f2
      rw [w1] at this
      cases this
      simp [mapBlock] at w2
    · exact absurd hk hu

/-! ## C107 -/

/-- **C107** A program with errors of its own between the header and the end of a loop, each a line of its own, is the
body of the loop, errors included, and the loop can itself be inserted and deleted as in C106. -/
theorem C107_loop {pre m post : Str} {y : Block} {st : List Token} {t label c e : Token}
    {op : Option LoopIterationOperation} {cond : Option LoopCondition} (hpre : StatementText pre st)
    (hh : LoopHead st t label op cond) (hm : SelfContained m y) (hpost : StatementText post [c, e])
    (hc : c.Is .IM_OUTTA_YR) (he : e.IsIdent) :
    ∃ n, SelfContained (pre ++ '\n' :: (m ++ '\n' :: post)) [n] ∧
      n.map Token.unplaced = (Node.imInYr t label op cond y e).map Token.unplaced := by
  obtain ⟨tp, p1, p2⟩ := hpre
  obtain ⟨tq, q1, q2⟩ := hpost
  obtain ⟨t', l', op', cond', h1, h2⟩ := hh.bare
  obtain ⟨ops, conds, rfl, -⟩ := hh
  obtain ⟨tm, m1, m2, m3⟩ := hm.body
  have hq0 : stmt tq 0 ≠ [] := by rw [stmt_zero q2]; simp
  have hp0 : stmt tp 0 ≠ [] := by rw [stmt_zero p2]; simp
  obtain ⟨u, k1, k2, k3⟩ := m1.join_stmts m2 q1 hq0
  obtain ⟨v, l1, l2, l3⟩ := p1.join_stmts hp0 k1 k2
  rw [h2]
  refine SelfContained.of_step l1 l2 (by simp) fun E => ?_
  have hb := m3 closeLoop close_loop c.unplaced [e.unplaced] E ⟨_, List.mem_cons_self, hc⟩
  rw [l3, k3, p2, q2]
  have := StepR.ok (NodeR.loop h1 hb he)
  simpa [bareStmts, Stmts.of, leftoverNodes] using this

/-- **C107** Between `O RLY?`, `YA RLY` and `OIC` it is the branch of the conditional. -/
theorem C107_conditional {pre m post : Str} {tp : List Token} {y : Block} {t q t' c : Token} (hpre : LinesOf pre tp)
    (htp : (split tp).all = [[t, q], [t']]) (ht : t.Is .O_RLY) (hq : q.IsQuestion) (ht' : t'.Is .YA_RLY)
    (hm : SelfContained m y) (hpost : StatementText post [c]) (hc : c.Is .OIC) :
    ∃ n, SelfContained (pre ++ '\n' :: (m ++ '\n' :: post)) [n] ∧
      n.map Token.unplaced = (Node.oRly t (some (.mk t' y)) none []).map Token.unplaced := by
  obtain ⟨tq, q1, q2⟩ := hpost
  obtain ⟨tm, m1, m2, m3⟩ := hm.body
  have hq0 : stmt tq 0 ≠ [] := by rw [stmt_zero q2]; simp
  have hp0 : stmt tp 0 ≠ [] := by rw [stmt_zero htp]; simp
  obtain ⟨u, k1, k2, k3⟩ := m1.join_stmts m2 q1 hq0
  obtain ⟨v, l1, l2, l3⟩ := hpre.join_stmts hp0 k1 k2
  refine SelfContained.of_step l1 l2 (by simp [Node.map]) fun E => ?_
  have hb := m3 closeIf close_if c.unplaced [] E ⟨.OIC, by decide, hc⟩
  have hno : ∀ {k : Keyword}, Keyword.OIC ≠ k → NotFirst k [c.unplaced] := by
    intro k hk t r e h
    cases e
    have h1 : c.tokenType = .keyword k := h
    have h2 : c.tokenType = .keyword .OIC := hc
    rw [h1] at h2
    cases h2
    exact hk rfl
  rw [l3, k3, htp, q2]
  have hy : YaRlyR (.of ([t'.unplaced] :: (bareStmts (split tm).all ++ [c.unplaced] :: E)))
    (.ok (some (.mk t'.unplaced (mapBlock Token.unplaced y))) ⟨[c.unplaced], E⟩) := .some (t := t'.unplaced) ht' hb
  have := StepR.ok (NodeR.conditional (t := t.unplaced) (.conditional (q := q.unplaced) ht hq) hy
    (.nil (hno (by decide))) (.none (hno (by decide))) hc)
  simpa [bareStmts, Stmts.of, leftoverNodes, Node.map, mapYaRly, mapMebbes, mapNoWai] using this

/-- **C107** Two of them are the two branches of a conditional. -/
theorem C107_both {pre m mid m' post : Str} {tp : List Token} {y y' : Block} {t q t' t'' c : Token}
    (hpre : LinesOf pre tp) (htp : (split tp).all = [[t, q], [t']]) (ht : t.Is .O_RLY) (hq : q.IsQuestion)
    (ht' : t'.Is .YA_RLY) (hm : SelfContained m y) (hmid : StatementText mid [t'']) (ht'' : t''.Is .NO_WAI)
    (hm' : SelfContained m' y') (hpost : StatementText post [c]) (hc : c.Is .OIC) :
    ∃ n, SelfContained (pre ++ '\n' :: (m ++ '\n' :: (mid ++ '\n' :: (m' ++ '\n' :: post)))) [n] ∧
      n.map Token.unplaced = (Node.oRly t (some (.mk t' y)) (some (.mk t'' y')) []).map Token.unplaced := by
  obtain ⟨tq, q1, q2⟩ := hpost
  obtain ⟨td, d1, d2⟩ := hmid
  obtain ⟨tm, m1, m2, m3⟩ := hm.body
  obtain ⟨tn, n1, n2, n3⟩ := hm'.body
  have hq0 : stmt tq 0 ≠ [] := by rw [stmt_zero q2]; simp
  have hd0 : stmt td 0 ≠ [] := by rw [stmt_zero d2]; simp
  have hp0 : stmt tp 0 ≠ [] := by rw [stmt_zero htp]; simp
  obtain ⟨u, k1, k2, k3⟩ := n1.join_stmts n2 q1 hq0
  obtain ⟨u', i1, i2, i3⟩ := d1.join_stmts hd0 k1 k2
  obtain ⟨u'', j1, j2, j3⟩ := m1.join_stmts m2 i1 i2
  obtain ⟨v, l1, l2, l3⟩ := hpre.join_stmts hp0 j1 j2
  refine SelfContained.of_step l1 l2 (by simp [Node.map]) fun E => ?_
  have hb' := n3 closeIf close_if c.unplaced [] E ⟨.OIC, by decide, hc⟩
  have hb := m3 closeIf close_if t''.unplaced [] (bareStmts (split tn).all ++ [c.unplaced] :: E)
    ⟨.NO_WAI, by decide, ht''⟩
  have hno : NotFirst .MEBBE [t''.unplaced] := by
    intro t r e h
    cases e
    have h1 : t''.tokenType = .keyword .MEBBE := h
    have h2 : t''.tokenType = .keyword .NO_WAI := ht''
    rw [h1] at h2
    cases h2
  rw [l3, j3, i3, k3, htp, q2, d2]
  have hy : YaRlyR (.of ([t'.unplaced] :: (bareStmts (split tm).all ++
      [t''.unplaced] :: (bareStmts (split tn).all ++ [c.unplaced] :: E))))
    (.ok (some (.mk t'.unplaced (mapBlock Token.unplaced y)))
      ⟨[t''.unplaced], bareStmts (split tn).all ++ [c.unplaced] :: E⟩) := .some (t := t'.unplaced) ht' hb
  have hw : NoWaiR ⟨[t''.unplaced], bareStmts (split tn).all ++ [c.unplaced] :: E⟩
    (.ok (some (.mk t''.unplaced (mapBlock Token.unplaced y'))) ⟨[c.unplaced], E⟩) := .some (t := t''.unplaced) ht'' hb'
  have := StepR.ok (NodeR.conditional (t := t.unplaced) (.conditional (q := q.unplaced) ht hq) hy
    (.nil hno) hw hc)
  simpa [bareStmts, Stmts.of, leftoverNodes, Node.map, mapYaRly, mapMebbes, mapNoWai] using this

/-- **C107** The errors of the loop are those of the program. -/
theorem C107_loop_errors {pre m post : Str} {y x : Block} {st : List Token} {t label c e : Token}
    {op : Option LoopIterationOperation} {cond : Option LoopCondition} (hpre : StatementText pre st)
    (hh : LoopHead st t label op cond) (hm : SelfContained m y) (hpost : StatementText post [c, e])
    (hc : c.Is .IM_OUTTA_YR) (he : e.IsIdent)
    (h : tokenizeAndParse ((pre ++ '\n' :: (m ++ '\n' :: post)) ++ ['\n']) = .ok (.ok x)) :
    (errorsBlock x).map (ASTError.map Token.unplaced) = (errorsBlock y).map (ASTError.map Token.unplaced) := by
  obtain ⟨n, h1, h2⟩ := C107_loop hpre hh hm hpost hc he
  have := h1.tree.symm.trans h
  cases this
  simp only [← errorsBlock_map, mapBlock, h2]
  simp [Node.map, errorsBlock, Node.errors]

/-- **C107** So are those of the conditional. -/
theorem C107_conditional_errors {pre m post : Str} {tp : List Token} {y x : Block} {t q t' c : Token}
    (hpre : LinesOf pre tp) (htp : (split tp).all = [[t, q], [t']]) (ht : t.Is .O_RLY) (hq : q.IsQuestion)
    (ht' : t'.Is .YA_RLY) (hm : SelfContained m y) (hpost : StatementText post [c]) (hc : c.Is .OIC)
    (h : tokenizeAndParse ((pre ++ '\n' :: (m ++ '\n' :: post)) ++ ['\n']) = .ok (.ok x)) :
    (errorsBlock x).map (ASTError.map Token.unplaced) = (errorsBlock y).map (ASTError.map Token.unplaced) := by
  obtain ⟨n, h1, h2⟩ := C107_conditional hpre htp ht hq ht' hm hpost hc
  have := h1.tree.symm.trans h
  cases this
  simp only [← errorsBlock_map, mapBlock, h2]
  simp [Node.map, mapYaRly, mapMebbes, mapNoWai, errorsBlock, Node.errors, errorsYaRly, errorsMebbes, errorsNoWai]

/-- **C107** With two branches they are those of the first program, then those of the second. -/
theorem C107_both_errors {pre m mid m' post : Str} {tp : List Token} {y y' x : Block} {t q t' t'' c : Token}
    (hpre : LinesOf pre tp) (htp : (split tp).all = [[t, q], [t']]) (ht : t.Is .O_RLY) (hq : q.IsQuestion)
    (ht' : t'.Is .YA_RLY) (hm : SelfContained m y) (hmid : StatementText mid [t'']) (ht'' : t''.Is .NO_WAI)
    (hm' : SelfContained m' y') (hpost : StatementText post [c]) (hc : c.Is .OIC)
    (h : tokenizeAndParse ((pre ++ '\n' :: (m ++ '\n' :: (mid ++ '\n' :: (m' ++ '\n' :: post)))) ++ ['\n']) =
      .ok (.ok x)) :
    (errorsBlock x).map (ASTError.map Token.unplaced) =
      (errorsBlock y).map (ASTError.map Token.unplaced) ++ (errorsBlock y').map (ASTError.map Token.unplaced) := by
  obtain ⟨n, h1, h2⟩ := C107_both hpre htp ht hq ht' hm hmid ht'' hm' hpost hc
  have := h1.tree.symm.trans h
  cases this
  simp only [← errorsBlock_map, mapBlock, h2]
  simp [Node.map, mapYaRly, mapMebbes, mapNoWai, errorsBlock, Node.errors, errorsYaRly, errorsMebbes, errorsNoWai]

/-- **C107** To any depth: in loops in loops the program has the errors it has alone, and the whole is as in C106. -/
theorem C107_nested {ws : List (Str × Str)} {m : Str} {y : Block} (hm : SelfContained m y)
    (hw : ∀ w ∈ ws, (∃ st t label op cond, StatementText w.1 st ∧ LoopHead st t label op cond) ∧
      ∃ c e, StatementText w.2 [c, e] ∧ c.Is .IM_OUTTA_YR ∧ e.IsIdent) :
    ∃ z, SelfContained (ws.foldr (fun w s => w.1 ++ '\n' :: (s ++ '\n' :: w.2)) m) z ∧
      (ws ≠ [] → z.length = 1) ∧
      (errorsBlock z).map (ASTError.map Token.unplaced) = (errorsBlock y).map (ASTError.map Token.unplaced) := by
  induction ws with
  | nil => exact ⟨y, hm, fun h => (h rfl).elim, rfl⟩
  | cons w ws ih =>
    obtain ⟨z, h1, -, h2⟩ := ih fun w h => hw w (List.mem_cons_of_mem _ h)
    obtain ⟨⟨st, t, label, op, cond, h3, h4⟩, c, e, h5, h6, h7⟩ := hw w List.mem_cons_self
    obtain ⟨n, h8, -⟩ := C107_loop h3 h4 h1 h5 h6 h7
    exact ⟨[n], h8, fun _ => rfl, (C107_loop_errors h3 h4 h1 h5 h6 h7 h8.tree).trans h2⟩

/-- **C107** In a source with errors, after a statement: with the loop around the program the source has a tree just
when it has one with the program alone, and panics just when it does so with the program alone. -/
theorem C107_into_loop {a l pre m post b : Str} {ta : List Token} (ha : LinesOf a ta) (hl : OneStatement l) {y : Block}
    {st : List Token} {t label c e : Token} {op : Option LoopIterationOperation} {cond : Option LoopCondition}
    (hpre : StatementText pre st) (hh : LoopHead st t label op cond) (hm : SelfContained m y)
    (hpost : StatementText post [c, e]) (hc : c.Is .IM_OUTTA_YR) (he : e.IsIdent) :
    ((∃ x, tokenizeAndParse (a ++ '\n' :: (l ++ '\n' :: (m ++ '\n' :: b))) = .ok (.ok x)) ↔
      ∃ x, tokenizeAndParse (a ++ '\n' :: (l ++ '\n' :: ((pre ++ '\n' :: (m ++ '\n' :: post)) ++ '\n' :: b))) =
        .ok (.ok x)) ∧
    ∀ p, tokenizeAndParse (a ++ '\n' :: (l ++ '\n' :: (m ++ '\n' :: b))) = .panic p ↔
      tokenizeAndParse (a ++ '\n' :: (l ++ '\n' :: ((pre ++ '\n' :: (m ++ '\n' :: post)) ++ '\n' :: b))) =
        .panic p := by
  obtain ⟨n, h1, -⟩ := C107_loop hpre hh hm hpost hc he
  exact C106_exchange ha hl hm h1

/-- **C107** The same for the conditional. -/
theorem C107_into_conditional {a l pre m post b : Str} {ta tp : List Token} (ha : LinesOf a ta) (hl : OneStatement l)
    {y : Block} {t q t' c : Token} (hpre : LinesOf pre tp) (htp : (split tp).all = [[t, q], [t']]) (ht : t.Is .O_RLY)
    (hq : q.IsQuestion) (ht' : t'.Is .YA_RLY) (hm : SelfContained m y) (hpost : StatementText post [c])
    (hc : c.Is .OIC) :
    ((∃ x, tokenizeAndParse (a ++ '\n' :: (l ++ '\n' :: (m ++ '\n' :: b))) = .ok (.ok x)) ↔
      ∃ x, tokenizeAndParse (a ++ '\n' :: (l ++ '\n' :: ((pre ++ '\n' :: (m ++ '\n' :: post)) ++ '\n' :: b))) =
        .ok (.ok x)) ∧
    ∀ p, tokenizeAndParse (a ++ '\n' :: (l ++ '\n' :: (m ++ '\n' :: b))) = .panic p ↔
      tokenizeAndParse (a ++ '\n' :: (l ++ '\n' :: ((pre ++ '\n' :: (m ++ '\n' :: post)) ++ '\n' :: b))) =
        .panic p := by
  obtain ⟨n, h1, -⟩ := C107_conditional hpre htp ht hq ht' hm hpost hc
  exact C106_exchange ha hl hm h1

-- `x R`, which is in error, and `GTFO`, as the body of a loop and of a conditional.
example : (∃ y, SelfContained chars!"x R\nGTFO" y ∧ (errorsBlock y).length = 1) ∧
    (∃ st t label, StatementText chars!"IM IN YR a" st ∧ LoopHead st t label none none) ∧
    (∃ c e, StatementText chars!"IM OUTTA YR a" [c, e] ∧ c.Is .IM_OUTTA_YR ∧ e.IsIdent) ∧
    (∃ t q t', LinesOf chars!"O RLY?\nYA RLY" [t, q, t'] ∧ (split [t, q, t']).all = [[t, q], [t']] ∧ t.Is .O_RLY ∧
      q.IsQuestion ∧ t'.Is .YA_RLY) ∧
    (∃ c, StatementText chars!"OIC" [c] ∧ c.Is .OIC) ∧ (∃ c, StatementText chars!"NO WAI" [c] ∧ c.Is .NO_WAI) ∧
    ∃ x, tokenizeAndParse ((chars!"IM IN YR a" ++ '\n' :: (chars!"x R\nGTFO" ++ '\n' :: chars!"IM OUTTA YR a")) ++
      ['\n']) = .ok (.ok x) ∧ (errorsBlock x).length = 1 := by
  refine ⟨?_, ?_, ⟨_, _, ⟨_, ⟨rfl, by decide +kernel⟩, rfl⟩, rfl, _, rfl⟩,
    ⟨_, _, _, ⟨rfl, by decide +kernel⟩, rfl, rfl, rfl, rfl⟩, ⟨_, ⟨_, ⟨rfl, by decide +kernel⟩, rfl⟩, rfl⟩,
    ⟨_, ⟨_, ⟨rfl, by decide +kernel⟩, rfl⟩, rfl⟩, _, rfl, by decide +kernel⟩
  · obtain ⟨y, h1, h2⟩ : ∃ y, tokenizeAndParse (chars!"x R\nGTFO" ++ ['\n']) = .ok (.ok y) ∧
      (errorsBlock y).length = 1 := ⟨_, rfl, by decide +kernel⟩
    refine ⟨y, C106_of_statements ⟨_, ⟨rfl, by decide +kernel⟩, ?_⟩ h1, h2⟩
    intro q hq
    rcases List.mem_cons.1 hq with rfl | hq
    · exact ⟨_, _, rfl, by decide +kernel⟩
    · rcases List.mem_cons.1 hq with rfl | hq
      · exact ⟨_, _, rfl, by decide +kernel⟩
      · cases hq
  · obtain ⟨t, l, h⟩ : ∃ t l, LinesOf chars!"IM IN YR a" [t, l] := ⟨_, _, rfl, by decide +kernel, by decide +kernel⟩
    refine ⟨[t, l], t, l, ⟨_, h, ?_⟩, [], [], rfl, ?_⟩
    · have := h.1
      cases this
      decide +kernel
    · have := h.1
      cases this
      exact ⟨rfl, ⟨_, rfl⟩, .none, .none⟩

end Lol
