import Verif.Lexer.LayoutLemmas
import Verif.Props.SourceText

/-! # Properties of `tokenize` and `tokenize_and_parse`: white space (C65) -/

namespace Lol

/-! ## C65 -/

/-- **C65** A source text that is tokenized is white space and lexemes in turn, one lexeme for each token. -/
theorem C65_layout {code : Str} {ts : List Token} (h : tokenize code = .ok (.ok ts)) :
    ∃ ps tail, code = layout ps tail ∧ TokensAt 0 1 ps ts ∧ GapsBlank ps tail := by
  obtain ⟨q, hq⟩ := tokenize_scan h
  obtain ⟨ps, tail, h1, h2, h3⟩ := hq.pieces
  refine ⟨ps, tail, h1, h3, ?_⟩
  clear h h1 h3 hq
  induction ps with
  | nil => exact ⟨by simp, h2⟩
  | cons p ps ih =>
    obtain ⟨g1, g2⟩ := ih h2.2.2
    refine ⟨fun x hx => ?_, g2⟩
    rcases List.mem_cons.1 hx with rfl | hx
    · exact h2.1
    · exact g1 x hx

-- `VISIBLE x  BTW hi` and `KTHXBYE` on the next line
example : ∃ ts, tokenize chars!"VISIBLE x  BTW hi\nKTHXBYE" = .ok (.ok ts) ∧ ts.length = 4 := by
  refine ⟨_, rfl, ?_⟩
  decide +kernel

/-- **C65** The white space between lexemes can be replaced by other white space, by a single space as long as no keyword
has a space after the lexeme before it: the tokens are the same, at the places of their lexemes. -/
theorem C65_tokens {ps ps' : List Piece} {tail tail' : Str} {ts : List Token}
    (h : tokenize (layout ps tail) = .ok (.ok ts)) (hat : TokensAt 0 1 ps ts) (hm : ∀ p ∈ ps, p.Movable)
    (hr : Respaced none ps tail ps' tail') :
    ∃ ts', tokenize (layout ps' tail') = .ok (.ok ts') ∧ TokensAt 0 1 ps' ts' ∧
      ts'.map (·.tokenType) = ts.map (·.tokenType) := by
  obtain ⟨q, hq⟩ := tokenize_scan h
  have hl := Lexed.respaced hr (Lexed.of_tokens hq hat) hm
  obtain ⟨ts', q', h1, h2⟩ := hl.scan .first
  refine ⟨ts', ?_, h2, ?_⟩
  · rw [tokenize_eq_run, run_scan h1, run_nil]
    simp [prepend]
  · have hty : ∀ {o l : Int} {ps : List Piece} {ts : List Token}, TokensAt o l ps ts →
        ts.map (·.tokenType) = ps.map (·.type) := by
      intro o l ps ts h
      induction ps generalizing o l ts with
      | nil => cases ts <;> simp_all [TokensAt]
      | cons p ps ih =>
        cases ts with
        | nil => simp [TokensAt] at h
        | cons t ts => simp [h.1, ih h.2.2.2.2]
    have hps : ∀ {prev : Option (Str × TokenType)} {ps ps' : List Piece} {tail tail' : Str},
        Respaced prev ps tail ps' tail' → ps'.map (·.type) = ps.map (·.type) := by
      intro prev ps ps' tail tail' h
      induction h with
      | nil => rfl
      | cons _ _ ih => simp [ih]
    rw [hty h2, hty hat, hps hr]

private def somePieces : List Piece :=
  [⟨chars!" ", chars!"I HAS A", .keyword .I_HAS_A⟩, ⟨chars!" ", chars!"x", .identifier chars!"x"⟩,
    ⟨chars!" ", chars!"ITZ", .keyword .ITZ⟩, ⟨chars!" ", chars!"\"a b\"", .value (.string chars!"a b")⟩,
    ⟨chars!"  ", chars!"BTW c", .commentSingleLine chars!" c"⟩, ⟨chars!"\n", chars!"VISIBLE", .keyword .VISIBLE⟩,
    ⟨chars!" ", chars!"x", .identifier chars!"x"⟩]

private def otherPieces : List Piece :=
  [⟨chars!"\n\n", chars!"I HAS A", .keyword .I_HAS_A⟩, ⟨chars!"   ", chars!"x", .identifier chars!"x"⟩,
    ⟨chars!"\t", chars!"ITZ", .keyword .ITZ⟩, ⟨chars!" ", chars!"\"a b\"", .value (.string chars!"a b")⟩,
    ⟨chars!"\t ", chars!"BTW c", .commentSingleLine chars!" c"⟩,
    ⟨chars!"\n\n    ", chars!"VISIBLE", .keyword .VISIBLE⟩, ⟨chars!"\t", chars!"x", .identifier chars!"x"⟩]

private theorem someRespaced : Respaced none somePieces [] otherPieces chars!"\n" := by
  refine .cons (.inr ?_) (.cons (.inr ?_) (.cons (.inr ?_) (.cons (.inl rfl) (.cons (.inr ?_) (.cons (.inr ?_)
    (.cons (.inr ?_) (.nil (.inr ?_))))))))
  · unfold WsOnly; decide +kernel
  · refine .inl ?_; show WideGap _; exact ⟨by unfold WsOnly; decide +kernel, by decide, by decide⟩
  · refine .inl ?_; show WideGap _; exact ⟨by unfold WsOnly; decide +kernel, by decide, by decide⟩
  · refine .inl ?_; show WideGap _; exact ⟨by unfold WsOnly; decide +kernel, by decide, by decide⟩
  · exact ⟨by unfold WsOnly; decide +kernel, _, rfl⟩
  · refine .inl ?_; show WideGap _; exact ⟨by unfold WsOnly; decide +kernel, by decide, by decide⟩
  · refine .inl ?_; show WideGap _; exact ⟨by unfold WsOnly; decide +kernel, by decide, by decide⟩

-- a declaration with a comment and `VISIBLE x`, and the same with tabs, empty lines and indentation
example : layout somePieces [] = chars!" I HAS A x ITZ \"a b\"  BTW c\nVISIBLE x" ∧
    layout otherPieces chars!"\n" = chars!"\n\nI HAS A   x\tITZ \"a b\"\t BTW c\n\n    VISIBLE\tx\n" := by
  decide +kernel

private theorem someMovable : ∀ p ∈ somePieces, p.Movable := by
  intro p hp
  simp only [somePieces, List.mem_cons, List.not_mem_nil, or_false] at hp
  rcases hp with rfl | rfl | rfl | rfl | rfl | rfl | rfl <;> refine ⟨fun s h => ?_, fun c h => ?_⟩ <;> cases h
  exact ⟨by decide +kernel, rfl⟩

example : (∃ ts, tokenize (layout somePieces []) = .ok (.ok ts) ∧ TokensAt 0 1 somePieces ts) ∧
    (∀ p ∈ somePieces, p.Movable) ∧ Respaced none somePieces [] otherPieces chars!"\n" := by
  refine ⟨⟨_, rfl, ?_⟩, someMovable, someRespaced⟩
  simp only [somePieces, TokensAt]
  decide +kernel

/-- **C65** A single space is different: it can join words to a keyword. -/
theorem C65_single_space : ∃ ts us, tokenize chars!"I  HAS A x" = .ok (.ok ts) ∧
    tokenize chars!"I HAS A x" = .ok (.ok us) ∧
    ts.map (·.tokenType) = [.identifier chars!"I", .keyword .HAS_A, .identifier chars!"x"] ∧
    us.map (·.tokenType) = [.keyword .I_HAS_A, .identifier chars!"x"] := by
  refine ⟨_, _, rfl, rfl, ?_⟩
  decide +kernel

/-- **C65** A newline after a number or an unclosed string at the end of the text makes a difference. -/
theorem C65_at_end : (∃ ts us, tokenize chars!"VISIBLE 1" = .ok (.ok ts) ∧
      tokenize chars!"VISIBLE 1\n" = .ok (.ok us) ∧ ts.map (·.tokenType) = [.keyword .VISIBLE, .symbol ['1']] ∧
      us.map (·.tokenType) = [.keyword .VISIBLE, .value (.number (.int 1))]) ∧
    ∃ ts us, tokenize chars!"VISIBLE \"a" = .ok (.ok ts) ∧ tokenize chars!"VISIBLE \"a\n" = .ok (.ok us) ∧
      ts.map (·.tokenType) = [.keyword .VISIBLE, .value (.string ['a'])] ∧
      us.map (·.tokenType) = [.keyword .VISIBLE, .value (.string ['a', '\n'])] := by
  refine ⟨⟨_, _, rfl, rfl, ?_⟩, _, _, rfl, rfl, ?_⟩ <;> decide +kernel

theorem SameSteps.first {l m : Int} {ts us : List Token} (h : SameSteps l m ts us) (a b : Int) :
    SameSteps (firstLine ts a) (firstLine us b) ts us := by
  cases ts with
  | nil => cases us <;> simp_all [SameSteps]
  | cons t ts =>
    cases us with
    | nil => simp [SameSteps] at h
    | cons u us =>
      simp only [SameSteps, firstLine] at h ⊢
      exact ⟨h.1, by simp, h.2.2⟩

theorem split_steps : (ts us : List Token) → (l m : Int) → SameSteps l m ts us →
    (splitFrom ts l).all.map (List.map (·.tokenType)) = (splitFrom us m).all.map (List.map (·.tokenType)) ∧
      (splitGap ts).map (List.map (·.tokenType)) = (splitGap us).map (List.map (·.tokenType))
  | [], [], _, _, _ => by simp [splitFrom, splitGap, Stmts.all]
  | [], _ :: _, _, _, h => by simp [SameSteps] at h
  | _ :: _, [], _, _, h => by simp [SameSteps] at h
  | t :: ts, u :: us, l, m, h => by
    obtain ⟨hty, hl, hs⟩ := h
    obtain ⟨i1, i2⟩ := split_steps ts us _ _ hs
    obtain ⟨j1, -⟩ := split_steps ts us _ _ (hs.first t.range.start.line u.range.start.line)
    obtain ⟨k1, -⟩ := split_steps ts us _ _ (hs.first l m)
    have hpush : ∀ {A B : Stmts}, A.all.map (List.map (·.tokenType)) = B.all.map (List.map (·.tokenType)) →
        (A.push t).all.map (List.map (·.tokenType)) = (B.push u).all.map (List.map (·.tokenType)) := by
      intro A B h
      simp only [Stmts.all, Stmts.push, List.map_cons, List.cons.injEq] at h ⊢
      exact ⟨⟨hty, h.1⟩, h.2⟩
    have hnil : ∀ {L L' : List (List Token)}, L.map (List.map (·.tokenType)) = L'.map (List.map (·.tokenType)) →
        (Stmts.all ⟨[], L⟩).map (List.map (·.tokenType)) = (Stmts.all ⟨[], L'⟩).map (List.map (·.tokenType)) := by
      intro L L' h
      simp [Stmts.all, h]
    have hgap : (splitGap (t :: ts)).map (List.map (·.tokenType)) =
        (splitGap (u :: us)).map (List.map (·.tokenType)) := by
      rw [splitGap, splitGap, ← hty]
      (repeat' split) <;> first | exact i2 | exact j1 | exact hpush i1
    refine ⟨?_, hgap⟩
    rw [splitFrom, splitFrom, ← hty]
    by_cases hc : t.tokenType = .comma
    · rw [if_pos hc, if_pos hc]; exact hnil i2
    · rw [if_neg hc, if_neg hc]
      by_cases hline : t.range.start.line = l
      · have hline' := hl.1 hline
        rw [if_pos hline, if_pos hline']
        by_cases he : t.tokenType = .ellipsis
        · rw [if_pos he, if_pos he]; exact k1
        · rw [if_neg he, if_neg he]
          rw [hline, hline'] at i1
          exact hpush i1
      · have hline' : ¬ u.range.start.line = m := fun h => hline (hl.2 h)
        rw [if_neg hline, if_neg hline']
        by_cases he : t.tokenType = .ellipsis
        · rw [if_pos he, if_pos he]; exact hnil j1
        · rw [if_neg he, if_neg he]; exact hnil (hpush i1)

theorem stmt_steps {l m : Int} {ts us : List Token} (h : SameSteps l m ts us) (k : Nat) :
    (stmt ts k).map (·.tokenType) = (stmt us k).map (·.tokenType) := by
  have h1 := (split_steps ts us _ _ (h.first 0 0)).1
  have h2 := congrArg (·[k]?) h1
  simp only [List.getElem?_map] at h2
  simp only [stmt, split, List.getD_eq_getElem?_getD]
  revert h2
  generalize (splitFrom ts (firstLine ts 0)).all[k]? = x, (splitFrom us (firstLine us 0)).all[k]? = y
  cases x <;> cases y <;> simp

/-- **C65** Two token lists with the same types, in which a token stands on the line of the token before it in both or
in none, have the same tree up to positions; `parse` panics on both or on none. -/
theorem C65_parse {l m : Int} {ts us : List Token} (h : SameSteps l m ts us) :
    mapOutcome Token.unplaced (parse us) = mapOutcome Token.unplaced (parse ts) := by
  refine C55_same (f := Token.unplaced) (fun _ => rfl) fun k => ?_
  have hm : ∀ vs : List Token, vs.map Token.unplaced = (vs.map (·.tokenType)).map fun ty =>
      (⟨ty, ⟨⟨0, 0, 0, 0⟩, ⟨0, 0, 0, 0⟩⟩⟩ : Token) := by
    intro vs
    simp [Token.unplaced]
  rw [hm, hm, stmt_steps h k]

-- lines can be numbered in any way, even downwards
example : SameSteps 1 9 [onLine 1 (.keyword .GTFO), onLine 2 (.keyword .GIMMEH), onLine 2 (.identifier chars!"x")]
    [onLine 9 (.keyword .GTFO), onLine 5 (.keyword .GIMMEH), onLine 5 (.identifier chars!"x")] := by
  simp [SameSteps, onLine]

theorem steps_of_breaks {o o' l l' : Int} {ps ps' : List Piece} {ts ts' : List Token} (h : TokensAt o l ps ts)
    (h' : TokensAt o' l' ps' ts') (hty : ts'.map (·.tokenType) = ts.map (·.tokenType)) (hb : SameBreaks ps ps') :
    SameSteps l l' ts ts' := by
  induction ps generalizing o o' l l' ps' ts ts' with
  | nil =>
    cases ts with
    | nil =>
      cases ts' with
      | nil => trivial
      | cons => simp at hty
    | cons => simp [TokensAt] at h
  | cons p ps ih =>
    cases ts with
    | nil => simp [TokensAt] at h
    | cons t ts =>
      cases ts' with
      | nil => simp at hty
      | cons t' ts' =>
        cases ps' with
        | nil => simp [TokensAt] at h'
        | cons p' ps' =>
          simp only [List.map_cons, List.cons.injEq] at hty
          obtain ⟨a1, a2, a3, a4, a5⟩ := h
          obtain ⟨b1, b2, b3, b4, b5⟩ := h'
          refine ⟨hty.1.symm, ?_, ?_⟩
          · have e1 := List.count_pos_iff (a := '\n') (l := p.gap)
            have e2 := List.count_pos_iff (a := '\n') (l := p'.gap)
            have e3 := hb.1
            rw [a4, b4]
            by_cases hn : '\n' ∈ p.gap
            · have := e1.2 hn
              have := e2.2 (e3.2 hn)
              constructor <;> intro <;> omega
            · have h0 : p.gap.count '\n' = 0 := List.count_eq_zero.2 hn
              have h0' : p'.gap.count '\n' = 0 := List.count_eq_zero.2 fun h => hn (e3.1 h)
              simp [h0, h0']
          · rw [a4, b4]
            exact ih a5 b5 hty.2 hb.2

/-- **C65** If the white space between lexemes is replaced so (`Respaced`), and newlines
stand between the same lexemes as before, the program is parsed as before, up to positions: the trees are the same, or
`parse` panics on both. -/
theorem C65_program {ps ps' : List Piece} {tail tail' : Str} {ts : List Token}
    (h : tokenize (layout ps tail) = .ok (.ok ts)) (hat : TokensAt 0 1 ps ts) (hm : ∀ p ∈ ps, p.Movable)
    (hr : Respaced none ps tail ps' tail') (hb : SameBreaks ps.tail ps'.tail) :
    ∃ ts', tokenize (layout ps' tail') = .ok (.ok ts') ∧
      mapOutcome Token.unplaced (parse ts') = mapOutcome Token.unplaced (parse ts) := by
  obtain ⟨ts', h1, h2, h3⟩ := C65_tokens h hat hm hr
  refine ⟨ts', h1, ?_⟩
  cases hr with
  | nil =>
    cases ts with
    | cons => simp [TokensAt] at hat
    | nil =>
      cases ts' with
      | cons => simp at h3
      | nil => rfl
  | @cons prev g g' lex ty ps ps' tail tail' hg hr =>
    cases ts with
    | nil => simp [TokensAt] at hat
    | cons t ts =>
      cases ts' with
      | nil => simp at h3
      | cons t' ts' =>
        simp only [List.map_cons, List.cons.injEq] at h3
        refine C65_parse (l := t.range.start.line) (m := t'.range.start.line) ⟨h3.1.symm, by simp, ?_⟩
        have a4 := hat.2.2.2.1
        have b4 := h2.2.2.2.1
        rw [a4, b4]
        exact steps_of_breaks hat.2.2.2.2 h2.2.2.2.2 h3.2 hb

example : (∃ ts, tokenize (layout somePieces []) = .ok (.ok ts) ∧ TokensAt 0 1 somePieces ts) ∧
    (∀ p ∈ somePieces, p.Movable) ∧ Respaced none somePieces [] otherPieces chars!"\n" ∧
    SameBreaks somePieces.tail otherPieces.tail := by
  refine ⟨⟨_, rfl, ?_⟩, someMovable, someRespaced, ?_⟩
  · simp only [somePieces, TokensAt]
    decide +kernel
  · simp only [somePieces, otherPieces, List.tail, SameBreaks]
    decide +kernel

/-- **C65** So the tree of the source text is the same up to positions. -/
theorem C65_trees {ps ps' : List Piece} {tail tail' : Str} {ts : List Token} {nodes : Block}
    (h : tokenize (layout ps tail) = .ok (.ok ts)) (hat : TokensAt 0 1 ps ts) (hm : ∀ p ∈ ps, p.Movable)
    (hr : Respaced none ps tail ps' tail') (hb : SameBreaks ps.tail ps'.tail)
    (hn : tokenizeAndParse (layout ps tail) = .ok (.ok nodes)) :
    ∃ nodes', tokenizeAndParse (layout ps' tail') = .ok (.ok nodes') ∧
      mapBlock Token.unplaced nodes' = mapBlock Token.unplaced nodes := by
  obtain ⟨ts', h1, h2⟩ := C65_program h hat hm hr hb
  have hp : parse ts = .ok nodes := by
    unfold tokenizeAndParse at hn
    rw [h] at hn
    change Out.bind (parse ts) _ = _ at hn
    cases hp : parse ts <;> rw [hp] at hn <;> cases hn
    rfl
  rw [hp] at h2
  cases hu : parse ts' with
  | ok nodes' =>
    rw [hu] at h2
    refine ⟨nodes', ?_, Out.ok.inj h2⟩
    unfold tokenizeAndParse
    rw [h1]
    show Out.bind (parse ts') _ = _
    rw [hu]
    rfl
  | panic p => rw [hu] at h2; cases h2
  | outOfFuel => rw [hu] at h2; cases h2

-- the two texts above have line breaks between the same lexemes, and their trees have three nodes: one is
-- the error for the comment after the declaration
example : SameBreaks somePieces.tail otherPieces.tail ∧
    ∃ nodes, tokenizeAndParse (layout somePieces []) = .ok (.ok nodes) ∧ nodes.length = 3 := by
  refine ⟨?_, _, rfl, ?_⟩
  · simp only [somePieces, otherPieces, List.tail, SameBreaks]
    decide +kernel
  · decide +kernel

/-- **C65** A line break in place of other white space makes another program. -/
theorem C65_line_break : ∃ nodes nodes', tokenizeAndParse chars!"VISIBLE  x" = .ok (.ok nodes) ∧
    tokenizeAndParse chars!"VISIBLE\nx" = .ok (.ok nodes') ∧ nodes.length = 1 ∧
    nodes'.length = 2 := by
  refine ⟨_, _, rfl, rfl, ?_⟩
  decide +kernel

end Lol
