import Verif.Lexer.LayoutLemmas
import Verif.Parser.CutSpec
import Verif.Parser.SplitLemmas
import Verif.Parser.ProgramLemmas

/-! # Helper lemmas: parts cut out of a source text -/

namespace Lol

/-! ## Pieces -/

theorem layout_append (a b : List Piece) (tail : Str) : layout (a ++ b) tail = layout a [] ++ layout b tail := by
  induction a with
  | nil => rfl
  | cons p a ih => simp [layout, ih]

theorem layout_tail (a : List Piece) (tail : Str) : layout a tail = layout a [] ++ tail := by
  have := layout_append a [] tail
  simpa [layout] using this

theorem TokensAt.append_inv {o l : Int} {ps : List Piece} {a b : List Token} (h : TokensAt o l ps (a ++ b)) :
    ∃ pa pb l', ps = pa ++ pb ∧ TokensAt o l pa a ∧ TokensAt (o + utf8Len (layout pa [])) l' pb b := by
  induction a generalizing o l ps with
  | nil => exact ⟨[], ps, l, rfl, trivial, by simpa [layout] using h⟩
  | cons t a ih =>
    cases ps with
    | nil => simp [TokensAt] at h
    | cons p ps =>
      obtain ⟨h1, h2, h3, h4, h5⟩ := h
      obtain ⟨pa, pb, l', rfl, i1, i2⟩ := ih h5
      refine ⟨p :: pa, pb, l', rfl, ⟨h1, h2, h3, h4, i1⟩, ?_⟩
      have e : o + (utf8Len (layout (p :: pa) []) : Int) =
          o + utf8Len (p.gap ++ p.lex) + utf8Len (layout pa []) := by
        simp only [layout, utf8Len_append]; omega
      rw [e]
      exact i2

theorem Lexed.suffix {a b : List Piece} {tail : Str} (h : Lexed (a ++ b) tail) : Lexed b tail := by
  induction a with
  | nil => exact h
  | cons p a ih => exact ih h.2.2

theorem TokensAt.last {o l : Int} {ps : List Piece} {ts : List Token} (h : TokensAt o l ps ts) {u : Token}
    (hu : ts.getLast? = some u) : u.range.stop.bytes = o + utf8Len (layout ps []) := by
  induction ts generalizing o l ps with
  | nil => cases hu
  | cons t ts ih =>
    cases ps with
    | nil => simp [TokensAt] at h
    | cons p ps =>
      obtain ⟨h1, h2, h3, h4, h5⟩ := h
      have e : (utf8Len (layout (p :: ps) []) : Int) = utf8Len (p.gap ++ p.lex) + utf8Len (layout ps []) := by
        simp only [layout, utf8Len_append]; omega
      cases ts with
      | nil =>
        cases ps with
        | cons => simp [TokensAt] at h5
        | nil =>
          simp only [List.getLast?_singleton, Option.some.injEq] at hu
          subst hu
          rw [h3, e]
          simp [layout]
      | cons t' ts =>
        rw [List.getLast?_cons_cons] at hu
        rw [ih h5 hu, e]
        omega

/-- The movable tokens are at movable pieces. -/
theorem TokensAt.movable {o l : Int} {ps rest : List Piece} {tail : Str} {ts : List Token} (h : TokensAt o l ps ts)
    (hl : Lexed (ps ++ rest) tail) (hm : ∀ t ∈ ts, t.Movable) : ∀ p ∈ ps, p.Movable := by
  induction ts generalizing o l ps with
  | nil =>
    cases ps with
    | nil => simp
    | cons => simp [TokensAt] at h
  | cons t ts ih =>
    cases ps with
    | nil => simp [TokensAt] at h
    | cons p ps =>
      obtain ⟨h1, h2, h3, h4, h5⟩ := h
      intro x hx
      rcases List.mem_cons.1 hx with rfl | hx
      · obtain ⟨m1, m2⟩ := hm t (by simp)
        refine ⟨fun s hs => ?_, fun c hc => m2 c (h1.trans hc)⟩
        obtain ⟨m3, m4⟩ := m1 s (h1.trans hs)
        refine ⟨m3, ?_⟩
        have hlex := hl.2.1
        rw [hs] at hlex
        have hlen : utf8Len x.lex = s.length + 2 := by
          rw [h3, h2, utf8Len_append] at m4; omega
        generalize x.lex = lex, layout (ps ++ rest) tail = rest at hlex hlen
        cases hlex with
        | stringOpen body g1 =>
          rw [utf8Len_cons, utf8Len_ascii m3] at hlen
          have : ('"' : Char).utf8Size = 1 := rfl
          omega
        | stringClosed body after pay c rest g1 g2 g3 g4 =>
          have g5 := (List.cons.inj g2).2
          obtain ⟨g6, g7⟩ := List.append_inj g5 (by rw [← g3, utf8Len_ascii m3])
          cases g7
          rfl
      · exact ih h5 hl.2.2 (fun t ht => hm t (by simp [ht])) x hx

/-! ## Cutting -/

/-- The lexemes of a part are found again when a newline comes after it. -/
theorem Lexed.cut {ps rest : List Piece} {tail : Str} (h : Lexed (ps ++ rest) tail) (hm : ∀ p ∈ ps, p.Movable) :
    Lexed ps ['\n'] := by
  induction ps with
  | nil => simp [Lexed, WsOnly, IsWs]
  | cons p ps ih =>
    obtain ⟨h1, h2, h3⟩ := h
    refine ⟨h1, ?_, ih h3 fun x hx => hm x (by simp [hx])⟩
    have hw : Widened p.lex (layout (ps ++ rest) tail) (layout ps ['\n']) := by
      rw [layout_append, layout_tail ps ['\n']]
      have := Widened.gap (a := p.lex) (layout ps []) ['\n'] (layout rest tail) [] ⟨by simp [WsOnly, IsWs], by simp, by simp⟩
      simpa using this
    refine Lexeme.widened (gap := p.gap) h2 (hm _ (by simp)) hw ?_
    intro s hs
    right
    cases ps with
    | nil => exact ⟨[], rfl⟩
    | cons q ps =>
      have h2' : Lexeme p.lex (layout (q :: ps ++ rest) tail) (.commentSingleLine s) := hs ▸ h2
      have hlx := h3.lexemes q (by simp)
      have ho : layout (q :: ps ++ rest) tail = [] ∨ ∃ r, layout (q :: ps ++ rest) tail = '\n' :: r := by
        generalize layout (q :: ps ++ rest) tail = r at h2'
        generalize p.lex = lex at h2'
        cases h2' with
        | btw body rest h5 h6 => exact h6
      simp only [List.cons_append, layout] at ho ⊢
      cases hq : q.gap with
      | cons c g =>
        simp only [hq, List.cons_append] at ho ⊢
        rcases ho with ho | ⟨r, ho⟩
        · cases ho
        · cases ho; exact ⟨_, rfl⟩
      | nil =>
        obtain ⟨g1, g2⟩ := hlx
        cases hx : q.lex with
        | nil => exact absurd hx g1
        | cons c lex =>
          simp only [hq, hx, List.nil_append, List.cons_append] at ho
          rcases ho with ho | ⟨r, ho⟩
          · cases ho
          · cases ho
            exact absurd (by decide) (g2 '\n' lex hx)

/-- Pieces without the white space in front of the first. -/
def flush : List Piece → List Piece
  | [] => []
  | p :: ps => ⟨[], p.lex, p.type⟩ :: ps

theorem Lexed.flush {ps : List Piece} {tail : Str} (h : Lexed ps tail) : Lexed (flush ps) tail := by
  cases ps with
  | nil => exact h
  | cons p ps => exact ⟨by simp [WsOnly], h.2.1, h.2.2⟩

/-- Tokens at the same pieces, further on by `d` bytes and `e` lines. -/
theorem TokensAt.shifted {o o' l l' d e : Int} {ps : List Piece} {ts ts' : List Token} (h : TokensAt o l ps ts)
    (h' : TokensAt o' l' ps ts') (ho : o' = o - d) (hl : l' = l - e) :
    ts'.map (fun t => (t.tokenType, t.range.start.bytes, t.range.stop.bytes, t.range.start.line)) =
      ts.map (fun t => (t.tokenType, t.range.start.bytes - d, t.range.stop.bytes - d, t.range.start.line - e)) := by
  induction ps generalizing o o' l l' ts ts' with
  | nil => cases ts <;> cases ts' <;> simp_all [TokensAt]
  | cons p ps ih =>
    cases ts with
    | nil => simp [TokensAt] at h
    | cons t ts =>
      cases ts' with
      | nil => simp [TokensAt] at h'
      | cons t' ts' =>
        obtain ⟨a1, a2, a3, a4, a5⟩ := h
        obtain ⟨b1, b2, b3, b4, b5⟩ := h'
        have := ih a5 b5 (by omega) (by omega)
        simp only [List.map_cons, this, List.cons.injEq, Prod.mk.injEq, and_true]
        exact ⟨b1.trans a1.symm, by omega, by omega, by omega⟩

theorem steps_of_shift {d e : Int} : {ts ts' : List Token} →
    ts'.map (fun t => (t.tokenType, t.range.start.bytes, t.range.stop.bytes, t.range.start.line)) =
      ts.map (fun t => (t.tokenType, t.range.start.bytes - d, t.range.stop.bytes - d, t.range.start.line - e)) →
    (l : Int) → SameSteps l (l - e) ts ts'
  | [], [], _, _ => trivial
  | [], _ :: _, h, _ => by simp at h
  | _ :: _, [], h, _ => by simp at h
  | t :: ts, t' :: ts', h, l => by
    simp only [List.map_cons, List.cons.injEq, Prod.mk.injEq] at h
    obtain ⟨⟨h1, h2, h3, h4⟩, h5⟩ := h
    refine ⟨h1.symm, by omega, ?_⟩
    rw [h4]
    exact steps_of_shift h5 _

/-! ## Statements -/

/-- The tokens of the current statement, up to the last one. -/
theorem split_cur_part : (ts : List Token) → (line : Int) → ∃ mid rest, ts = mid ++ rest ∧
    splitFrom mid line = ⟨(splitFrom ts line).cur, []⟩ ∧ ((splitFrom ts line).cur = [] → mid = []) ∧
    mid.getLast? = (splitFrom ts line).cur.getLast?
  | [], line => ⟨[], [], rfl, by simp [splitFrom], by simp, by simp [splitFrom]⟩
  | t :: ts, line => by
    have none : (splitFrom (t :: ts) line).cur = [] → ∃ mid rest, t :: ts = mid ++ rest ∧
        splitFrom mid line = ⟨(splitFrom (t :: ts) line).cur, []⟩ ∧
        ((splitFrom (t :: ts) line).cur = [] → mid = []) ∧
        mid.getLast? = (splitFrom (t :: ts) line).cur.getLast? :=
      fun h => ⟨[], t :: ts, rfl, by rw [h, splitFrom], by simp, by simp [h]⟩
    by_cases hc : t.tokenType = .comma
    · exact none (by simp [splitFrom, hc])
    · by_cases hl : t.range.start.line = line
      · by_cases he : t.tokenType = .ellipsis
        · have e : splitFrom (t :: ts) line = splitFrom ts (firstLine ts line) := by simp [splitFrom, hl, he]
          obtain ⟨mid, rest, h1, h2, h3, h4⟩ := split_cur_part ts (firstLine ts line)
          by_cases hn : (splitFrom (t :: ts) line).cur = []
          · exact none hn
          · refine ⟨t :: mid, rest, by rw [h1]; rfl, ?_, fun h => absurd h hn, ?_⟩
            · rw [e, ← h2]
              have : firstLine ts line = firstLine mid line := by
                cases mid with
                | nil =>
                  rw [e] at hn
                  exact absurd (by simpa [splitFrom] using h2.symm) hn
                | cons u mid => rw [h1]; rfl
              rw [splitFrom, if_neg hc, if_pos hl, if_pos he, this]
            · rw [e, ← h4]
              cases mid with
              | nil =>
                rw [e] at hn
                exact absurd (by simpa [splitFrom] using h2.symm) hn
              | cons u mid => rw [List.getLast?_cons_cons]
        · have e : ∀ r, splitFrom (t :: r) line = (splitFrom r line).push t := by
            intro r; simp [splitFrom, hc, hl, he]
          obtain ⟨mid, rest, h1, h2, h3, h4⟩ := split_cur_part ts line
          refine ⟨t :: mid, rest, by rw [h1]; rfl, ?_, by simp [e, Stmts.push], ?_⟩
          · rw [e, e, h2]; rfl
          · rw [e]
            show (t :: mid).getLast? = (t :: (splitFrom ts line).cur).getLast?
            rw [List.getLast?_cons, List.getLast?_cons, h4]
      · exact none (by simp [splitFrom, hc, hl])

/-- Ellipses in front of it aside. -/
theorem split_cur_start : (mid : List Token) → (line : Int) → (st : List Token) → splitFrom mid line = ⟨st, []⟩ →
    st ≠ [] → ∃ dots mid', mid = dots ++ mid' ∧ mid'.head? = st.head? ∧ mid' ≠ [] ∧ split mid' = ⟨st, []⟩
  | [], line, st, h, hn => by simp [splitFrom] at h; exact absurd h hn
  | t :: r, line, st, h, hn => by
    by_cases hc : t.tokenType = .comma
    · simp [splitFrom, hc] at h; exact absurd h.1 hn
    · by_cases hl : t.range.start.line = line
      · by_cases he : t.tokenType = .ellipsis
        · rw [splitFrom, if_neg hc, if_pos hl, if_pos he] at h
          obtain ⟨dots, mid', h1, h2, h3, h4⟩ := split_cur_start r _ st h hn
          exact ⟨t :: dots, mid', by rw [h1]; rfl, h2, h3, h4⟩
        · refine ⟨[], t :: r, rfl, ?_, by simp, ?_⟩
          · rw [splitFrom, if_neg hc, if_pos hl, if_neg he] at h
            have := congrArg Stmts.cur h
            simp only [Stmts.push] at this
            rw [← this]; rfl
          · rw [split, firstLine, hl, h]
      · simp [splitFrom, hc, hl] at h; exact absurd h.1 hn

theorem split_cur_segment {ts : List Token} {line : Int} (h : (splitFrom ts line).cur ≠ []) :
    ∃ a mid c, ts = a ++ (mid ++ c) ∧ mid.head? = (splitFrom ts line).cur.head? ∧
      mid.getLast? = (splitFrom ts line).cur.getLast? ∧ split mid = ⟨(splitFrom ts line).cur, []⟩ := by
  obtain ⟨mid, rest, h1, h2, h3, h4⟩ := split_cur_part ts line
  obtain ⟨dots, mid', g1, g2, g3, g4⟩ := split_cur_start mid line _ h2 h
  refine ⟨dots, mid', rest, ?_, g2, ?_, g4⟩
  · rw [h1, g1, List.append_assoc]
  · rw [← h4, g1, List.getLast?_append]
    cases h : mid'.getLast? with
    | none => exact absurd (List.getLast?_eq_none_iff.1 h) g3
    | some u => rfl

theorem split_suffix (ts : List Token) :
    (∀ line, ∀ st ∈ (splitFrom ts line).all, ∃ a s l, ts = a ++ s ∧ st = (splitFrom s l).cur) ∧
      ∀ st ∈ splitGap ts, ∃ a s l, ts = a ++ s ∧ st = (splitFrom s l).cur := by
  induction ts with
  | nil =>
    refine ⟨fun line st h => ⟨[], [], 0, rfl, ?_⟩, fun st h => by simp [splitGap] at h⟩
    simpa [splitFrom, Stmts.all] using h
  | cons t ts ih =>
    obtain ⟨ih1, ih2⟩ := ih
    have lift : ∀ {st : List Token}, (∃ a s l, ts = a ++ s ∧ st = (splitFrom s l).cur) →
        ∃ a s l, t :: ts = a ++ s ∧ st = (splitFrom s l).cur := by
      rintro st ⟨a, s, l, rfl, h⟩
      exact ⟨t :: a, s, l, rfl, h⟩
    have first : ∀ line, ∃ a s l, t :: ts = a ++ s ∧ (splitFrom (t :: ts) line).cur = (splitFrom s l).cur :=
      fun line => ⟨[], _, line, rfl, rfl⟩
    have push : t.tokenType ≠ .comma → t.tokenType ≠ .ellipsis →
        ∀ st ∈ ((splitFrom ts t.range.start.line).push t).all,
          ∃ a s l, t :: ts = a ++ s ∧ st = (splitFrom s l).cur := by
      intro hc he st hst
      simp only [Stmts.all, List.mem_cons] at hst
      rcases hst with rfl | hst
      · refine ⟨[], t :: ts, t.range.start.line, rfl, ?_⟩
        rw [splitFrom, if_neg hc, if_pos rfl, if_neg he]
      · exact lift (ih1 _ st (List.mem_cons_of_mem _ hst))
    have hgap : ∀ st ∈ splitGap (t :: ts), ∃ a s l, t :: ts = a ++ s ∧ st = (splitFrom s l).cur := by
      intro st hst
      rw [splitGap] at hst
      split at hst
      · exact lift (ih2 st hst)
      · split at hst
        · exact lift (ih1 _ st hst)
        · exact push (by assumption) (by assumption) st hst
    refine ⟨fun line st hst => ?_, hgap⟩
    rcases List.mem_cons.1 hst with rfl | hst
    · exact first line
    · rw [splitFrom] at hst
      split at hst
      · exact lift (ih2 st hst)
      · split at hst
        · split at hst
          · exact lift (ih1 _ st (List.mem_cons_of_mem _ hst))
          · exact lift (ih1 line st (List.mem_cons_of_mem _ hst))
        · dsimp only at hst
          split at hst
          · exact lift (ih1 _ st hst)
          · exact push (by assumption) (by assumption) st hst

/-- A statement is a part of the token list. -/
theorem stmt_segment {ts : List Token} {i : Nat} (h : stmt ts i ≠ []) :
    ∃ a mid c, ts = a ++ (mid ++ c) ∧ mid.head? = (stmt ts i).head? ∧ mid.getLast? = (stmt ts i).getLast? ∧
      split mid = ⟨stmt ts i, []⟩ := by
  have hmem : stmt ts i ∈ (split ts).all := by
    unfold stmt at h ⊢
    rw [List.getD_eq_getElem?_getD] at h ⊢
    cases hx : (split ts).all[i]? with
    | none => simp [hx] at h
    | some x =>
      rw [Option.getD_some]
      exact List.mem_of_getElem? hx
  obtain ⟨a, s, l, h1, h2⟩ := (split_suffix ts).1 _ _ hmem
  rw [h2] at h ⊢
  obtain ⟨a', mid, c, g1, g2, g3, g4⟩ := split_cur_segment h
  exact ⟨a ++ a', mid, c, by rw [h1, g1, List.append_assoc], g2, g3, g4⟩

theorem movable_of_segment {mid st : List Token} (h : split mid = ⟨st, []⟩) (hm : ∀ t ∈ st, t.Movable) :
    ∀ t ∈ mid, t.Movable := by
  have h1 := split_tokens mid
  rw [h] at h1
  simp only [Stmts.tokens, List.flatten_nil, List.append_nil] at h1
  intro t ht
  cases hs : t.isSeparator with
  | false => exact hm t (by rw [h1, content]; exact List.mem_filter.2 ⟨ht, by simp [hs]⟩)
  | true =>
    constructor
    · intro s h; simp [Token.isSeparator, h] at hs
    · intro s h; simp [Token.isSeparator, h] at hs

/-! ## Nodes -/

theorem errorFreeOmgs_mem {l r : List WtfOmg} {omg : Token} {e : Expr} {b : Block}
    (h : errorFreeOmgs (l ++ .mk omg e b :: r)) : errorFreeBlock b := by
  induction l with
  | nil => exact h.1
  | cons x l ih => cases x; exact ih h.2

theorem errorFreeMebbes_mem {l r : List Mebbe} {u : Token} {e : Expr} {b : Block}
    (h : errorFreeMebbes (l ++ .mk u e b :: r)) : errorFreeBlock b := by
  induction l with
  | nil => exact h.1
  | cons x l ih => cases x; exact ih h.2

theorem errorFree_of_append {a b : Block} {n : Node} (h : errorFreeBlock (a ++ n :: b)) : n.ErrorFree := by
  rw [errorFreeBlock_append] at h
  exact h.2.1

theorem Edited.within {W : Block → Block → Prop} {P : Block → Prop} {nodes nodes' : Block}
    (h : Edited W nodes nodes') (he : errorFreeBlock nodes) (hw : ∀ x x', W x x' → errorFreeBlock x → P x) :
    ∃ x, P x ∧ Within x nodes := by
  induction h with
  | lost hm =>
    obtain ⟨a, b, rfl⟩ := List.append_of_mem hm
    exact absurd (errorFree_of_append he) (by simp [Node.ErrorFree])
  | here a b hx =>
    rw [errorFreeBlock_append, errorFreeBlock_append] at he
    exact ⟨_, hw _ _ hx he.2.1, .here a b⟩
  | loop a b t label op cond endLabel _ ih =>
    obtain ⟨x, h1, h2⟩ := ih (errorFree_of_append he)
    exact ⟨x, h1, .loop a b t label op cond endLabel h2⟩
  | function a b t name params _ ih =>
    obtain ⟨x, h1, h2⟩ := ih (errorFree_of_append he)
    exact ⟨x, h1, .function a b t name params h2⟩
  | case a b t l r omg e dflt _ ih =>
    obtain ⟨x, h1, h2⟩ := ih (errorFreeOmgs_mem (errorFree_of_append he).1)
    exact ⟨x, h1, .case a b t l r omg e dflt h2⟩
  | dflt a b t omgs u _ ih =>
    obtain ⟨x, h1, h2⟩ := ih (errorFree_of_append he).2
    exact ⟨x, h1, .dflt a b t omgs u h2⟩
  | yes a b t u no ms _ ih =>
    obtain ⟨x, h1, h2⟩ := ih (errorFree_of_append he).1
    exact ⟨x, h1, .yes a b t u no ms h2⟩
  | maybe a b t yes no l r u e _ ih =>
    obtain ⟨x, h1, h2⟩ := ih (errorFreeMebbes_mem (errorFree_of_append he).2.1)
    exact ⟨x, h1, .maybe a b t yes no l r u e h2⟩
  | no a b t u yes ms _ ih =>
    obtain ⟨x, h1, h2⟩ := ih (errorFree_of_append he).2.2
    exact ⟨x, h1, .no a b t u yes ms h2⟩

end Lol
