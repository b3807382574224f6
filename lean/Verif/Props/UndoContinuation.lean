import Verif.Props.Continuation
import Verif.Props.Rename
import Verif.Lexer.GraftLemmas

/-! # A continued line made one line again (C95) -/

namespace Lol

private theorem breaks_refl : (ps : List Piece) → SameBreaks ps ps
  | [] => trivial
  | _ :: ps => ⟨Iff.rfl, breaks_refl ps⟩

private theorem steps_trans {l m n : Int} {ts us vs : List Token} (h : SameSteps l m ts us) (h' : SameSteps m n us vs) :
    SameSteps l n ts vs := by
  induction ts generalizing l m n us vs with
  | nil =>
    cases us with
    | nil => cases vs <;> simp_all [SameSteps]
    | cons => simp [SameSteps] at h
  | cons t ts ih =>
    cases us with
    | nil => simp [SameSteps] at h
    | cons u us =>
      cases vs with
      | nil => simp [SameSteps] at h'
      | cons v vs => exact ⟨h.1.trans h'.1, h.2.1.trans h'.2.1, ih h.2.2 h'.2.2⟩

/-- The tokens before and after the place where an ellipsis is taken out. -/
private theorem around {as bs : List Piece} {e u : Piece} {g : Str} (hb : '\n' ∈ g ↔ '\n' ∈ e.gap) {o o' l l' : Int}
    {ts ts' : List Token} (h : TokensAt o l (as ++ e :: u :: bs) ts)
    (h' : TokensAt o' l' (as ++ ⟨g, u.lex, u.type⟩ :: bs) ts') :
    ∃ ta te tu tb ta' tu' tb', ts = ta ++ te :: tu :: tb ∧ ts' = ta' ++ tu' :: tb' ∧ te.tokenType = e.type ∧
      tu.tokenType = u.type ∧ tu'.tokenType = u.type ∧
      SameSteps tu'.range.start.line tu.range.start.line tb' tb ∧
      ∀ e' Y, e'.tokenType = e.type → e'.range.start.line = tu'.range.start.line →
        SameSteps te.range.start.line tu'.range.start.line (tu :: tb) Y →
        SameSteps l l' (ta ++ te :: tu :: tb) (ta' ++ e' :: Y) := by
  induction as generalizing o o' l l' ts ts' with
  | nil =>
    rcases ts with _ | ⟨te, _ | ⟨tu, tb⟩⟩
    · simp [TokensAt] at h
    · simp [TokensAt] at h
    · cases ts' with
      | nil => simp [TokensAt] at h'
      | cons tu' tb' =>
        obtain ⟨a1, -, -, a4, b1, -, -, b4, b5⟩ := h
        obtain ⟨c1, -, -, c4, c5⟩ := h'
        refine ⟨[], te, tu, tb, [], tu', tb', rfl, rfl, a1, b1, c1, ?_, ?_⟩
        · rw [b4, c4]
          refine steps_of_breaks c5 b5 ?_ (breaks_refl bs)
          rw [c5.types, b5.types]
        · intro e' Y h1 h2 h3
          refine ⟨by rw [h1, a1], ?_, by rw [h2]; exact h3⟩
          rw [h2, a4, c4]
          have e1 := List.count_pos_iff (a := '\n') (l := g)
          have e2 := List.count_pos_iff (a := '\n') (l := e.gap)
          by_cases hn : '\n' ∈ g
          · have := e1.2 hn
            have := e2.2 (hb.1 hn)
            constructor <;> intro <;> simp only at * <;> omega
          · have h0 : g.count '\n' = 0 := List.count_eq_zero.2 hn
            have h0' : e.gap.count '\n' = 0 := List.count_eq_zero.2 fun h => hn (hb.2 h)
            simp [h0, h0']
  | cons p as ih =>
    cases ts with
    | nil => simp [TokensAt] at h
    | cons t ts =>
      cases ts' with
      | nil => simp [TokensAt] at h'
      | cons t' ts' =>
        obtain ⟨a1, -, -, a4, a5⟩ := h
        obtain ⟨c1, -, -, c4, c5⟩ := h'
        obtain ⟨ta, te, tu, tb, ta', tu', tb', rfl, rfl, i1, i2, i3, i4, i5⟩ := ih a5 c5
        refine ⟨t :: ta, te, tu, tb, t' :: ta', tu', tb', rfl, rfl, i1, i2, i3, i4, fun e' Y h1 h2 h3 => ?_⟩
        refine ⟨a1.trans c1.symm, ?_, ?_⟩
        · rw [a4, c4]
          constructor <;> intro <;> omega
        · rw [a4, c4]
          exact i5 e' Y h1 h2 h3

/-- **C95** An ellipsis before anything but a comma can be taken out, with all white space around it, new lines
included, replaced by other white space (`g`, which has a newline if there is one before the ellipsis): the result is
the same up to positions. The white space must not be a single space where this would join two words to a keyword, the
strings before it must be ASCII and closed, and a comment before it still ends at a newline. -/
theorem C95_undo {as bs : List Piece} {e u : Piece} {tail g : Str} {ts : List Token}
    (h : tokenize (layout (as ++ e :: u :: bs) tail) = .ok (.ok ts)) (hat : TokensAt 0 1 (as ++ e :: u :: bs) ts)
    (he : e.type = .ellipsis) (hu : u.type ≠ .comma) (hw : WsOnly g) (hb : '\n' ∈ g ↔ '\n' ∈ e.gap)
    (hg : ∀ q, as.getLast? = some q → WideGap g ∨ g = [' '] ∧ ¬ Joins q.lex)
    (hc : ∀ q s, as.getLast? = some q → q.type = .commentSingleLine s → ∃ r, g = '\n' :: r)
    (hm : ∀ q ∈ as, q.Movable) :
    unplacedResult (tokenizeAndParse (layout as (g ++ (u.lex ++ layout bs tail)))) =
      unplacedResult (tokenizeAndParse (layout (as ++ e :: u :: bs) tail)) := by
  obtain ⟨q, hq⟩ := tokenize_scan h
  have hl := Lexed.of_tokens hq hat
  have hr : Lexed (⟨g, u.lex, u.type⟩ :: bs) tail := by
    have : ∀ {xs : List Piece}, Lexed (xs ++ e :: u :: bs) tail → Lexed (u :: bs) tail := by
      intro xs
      induction xs with
      | nil => exact fun h => h.2.2
      | cons x xs ih => exact fun h => ih h.2.2
    exact ⟨hw, (this hl).2⟩
  have hn := Lexed.graft (R' := ⟨g, u.lex, u.type⟩ :: bs) hl hm hg hc hr rfl
  obtain ⟨ts', q', h1, h2⟩ := hn.scan .first
  have e1 : layout (as ++ ⟨g, u.lex, u.type⟩ :: bs) tail = layout as (g ++ (u.lex ++ layout bs tail)) := layout_put _ _ _
  have ht : tokenize (layout as (g ++ (u.lex ++ layout bs tail))) = .ok (.ok ts') := by
    rw [← e1, tokenize_eq_run, run_scan h1, run_nil]
    simp [prepend]
  obtain ⟨ta, te, tu, tb, ta', tu', tb', rfl, rfl, i1, i2, i3, i4, i5⟩ := around hb hat h2
  have hp : mapOutcome Token.unplaced (parse (ta' ++ tu' :: tb')) =
      mapOutcome Token.unplaced (parse (ta ++ te :: tu :: tb)) := by
    obtain ⟨d, hd⟩ : ∃ d, te.range.start.line + d = tu'.range.start.line :=
      ⟨tu'.range.start.line - te.range.start.line, by omega⟩
    have hsh := steps_shift (l0 := 0) (dl := d) (dc := 0) (db := 0) (dch := 0) (tu :: tb) te.range.start.line
    rw [hd] at hsh
    have h3 := C65_parse (i5 ⟨.ellipsis, tu'.range⟩ _ he.symm rfl hsh)
    have h4 := C95_tokens (pre := ta') (e := ⟨.ellipsis, tu'.range⟩) (u := tu') (us := tb')
      (u' := tu.shift 0 d 0 0 0) (us' := tb.map (Token.shift 0 d 0 0 0)) rfl rfl (by rw [i3]; exact hu)
      ⟨i3.trans i2.symm, by simp, steps_trans i4 (steps_shift tb _)⟩
    exact h4.symm.trans h3
  rw [unplacedResult_parse h, unplacedResult_parse ht, hp]

-- `VISIBLE x ...` and `y` two lines below; `VISIBLE x y` with a tab instead.
example : unplacedResult (tokenizeAndParse chars!"VISIBLE x\ty\n") =
    unplacedResult (tokenizeAndParse chars!"VISIBLE x ...\n\n  y\n") := by
  refine C95_undo (as := [⟨[], chars!"VISIBLE", .keyword .VISIBLE⟩, ⟨chars!" ", chars!"x", .identifier chars!"x"⟩])
    (e := ⟨chars!" ", chars!"...", .ellipsis⟩) (u := ⟨chars!"\n\n  ", chars!"y", .identifier chars!"y"⟩) (bs := [])
    (tail := chars!"\n") (g := chars!"\t") rfl ?_ rfl (by simp) (by simp [WsOnly, IsWs]) (by decide)
    (fun q _ => .inl (by simp [WideGap, WsOnly, IsWs])) ?_ ?_
  · simp only [TokensAt, List.cons_append, List.nil_append]
    decide +kernel
  · rintro q s hq
    cases hq
    exact fun h => by cases h
  · intro q hq
    simp only [List.mem_cons, List.not_mem_nil, or_false] at hq
    rcases hq with rfl | rfl <;> exact ⟨fun _ h => (by cases h), fun _ h => (by cases h)⟩

/-- **C95** Replaced by a single space, an ellipsis can leave two words that are a keyword together. -/
theorem C95_undo_joins : Joins chars!"SUM" ∧ ∃ nodes nodes',
    tokenizeAndParse chars!"VISIBLE SUM ...\nOF 1 AN 2\n" = .ok (.ok nodes) ∧
    tokenizeAndParse chars!"VISIBLE SUM OF 1 AN 2\n" = .ok (.ok nodes') ∧
    0 < (errorsBlock nodes).length ∧ (errorsBlock nodes').length = 0 := by
  refine ⟨⟨.SUM_OF, [], chars!"OF", rfl, .nil⟩, _, _, rfl, rfl, ?_⟩
  decide +kernel

end Lol

