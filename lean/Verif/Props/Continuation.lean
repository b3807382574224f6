import Verif.Props.Separators
import Verif.Lexer.DotsLemmas

/-! # Lines continued by an ellipsis (C95) -/

namespace Lol

/-! ## Statements -/

/-- What follows the tokens `ta` matters only through its statements and its first line. -/
theorem split_before {X Y : List Token} (hf : ∀ l, firstLine X l = firstLine Y l)
    (hx : ∀ l, Like (splitFrom X l).all (splitFrom Y l).all) (hg : Like (splitGap X) (splitGap Y)) :
    (ta : List Token) → (∀ l, Like (splitFrom (ta ++ X) l).all (splitFrom (ta ++ Y) l).all) ∧
      Like (splitGap (ta ++ X)) (splitGap (ta ++ Y))
  | [] => ⟨hx, hg⟩
  | t :: ta => by
    obtain ⟨i1, i2⟩ := split_before hf hx hg ta
    have hell : ∀ l, Like (splitFrom (ta ++ X) (firstLine (ta ++ X) l)).all
        (splitFrom (ta ++ Y) (firstLine (ta ++ Y) l)).all := by
      intro l
      cases ta with
      | nil => rw [List.nil_append, List.nil_append, hf]; exact i1 _
      | cons u ta => exact i1 _
    constructor
    · intro l
      rw [List.cons_append, List.cons_append, splitFrom, splitFrom]
      split
      · exact like_nil i2
      · split
        · split
          · exact hell _
          · exact like_push (i1 _)
        · split
          · exact like_nil (hell _)
          · exact like_nil (like_push (i1 _))
    · rw [List.cons_append, List.cons_append, splitGap, splitGap]
      split
      · exact i2
      · split
        · exact hell _
        · exact like_push (i1 _)

/-- The current statement of a list that starts on its line. -/
theorem splitFrom_own {u : Token} {us : List Token} (hu : u.tokenType ≠ .comma) :
    splitGap (u :: us) = (splitFrom (u :: us) u.range.start.line).all ∧
      ∀ l, l ≠ u.range.start.line →
        splitFrom (u :: us) l = ⟨[], (splitFrom (u :: us) u.range.start.line).all⟩ := by
  constructor
  · rw [splitGap, splitFrom, if_neg hu, if_neg hu, if_pos rfl]
    split <;> rfl
  · intro l hl
    rw [splitFrom, splitFrom, if_neg hu, if_neg (Ne.symm hl), if_neg hu, if_pos rfl]
    split <;> rfl

/-! ## C95: an ellipsis and a new line -/

/-- **C95** An ellipsis can be put in front of any token but a comma, on its line, and the token and all that follow it
can then stand on any other lines (with the line breaks between them as before): the tree is the same up to positions,
or `parse` panics on both. -/
theorem C95_tokens {pre us us' : List Token} {e u u' : Token} (he : e.tokenType = .ellipsis)
    (hl : e.range.start.line = u.range.start.line) (hu : u.tokenType ≠ .comma)
    (hs : SameSteps u.range.start.line u'.range.start.line (u :: us) (u' :: us')) :
    mapOutcome Token.unplaced (parse (pre ++ e :: u' :: us')) = mapOutcome Token.unplaced (parse (pre ++ u :: us)) := by
  refine parse_like ?_
  have h0 : Like (splitFrom (u' :: us') u'.range.start.line).all (splitFrom (u :: us) u.range.start.line).all :=
    (split_steps _ _ _ _ hs).1.symm
  have hec : e.tokenType ≠ .comma := by rw [he]; exact TokenType.noConfusion
  have hx : ∀ l, Like (splitFrom (e :: u' :: us') l).all (splitFrom (u :: us) l).all := by
    intro l
    rw [splitFrom, if_neg hec, if_pos he, if_pos he]
    by_cases h : e.range.start.line = l
    · rw [if_pos h, ← h, hl]
      exact h0
    · rw [if_neg h, (splitFrom_own (us := us) hu).2 l (by rw [← hl]; exact Ne.symm h)]
      exact like_nil h0
  have hg : Like (splitGap (e :: u' :: us')) (splitGap (u :: us)) := by
    rw [splitGap, if_neg hec, if_pos he, (splitFrom_own hu).1]
    exact h0
  have hk := (split_before (X := e :: u' :: us') (Y := u :: us) (fun _ => hl) hx hg pre).1
  cases pre with
  | nil =>
    show Like (splitFrom (e :: u' :: us') e.range.start.line).all (splitFrom (u :: us) u.range.start.line).all
    rw [hl]
    exact hx _
  | cons t pre => exact hk t.range.start.line

-- `VISIBLE a`, and the same with an ellipsis and `a` three lines below; then `GTFO` on the next line in both.
example : SameSteps 1 4 [onLine 1 (.identifier chars!"a"), onLine 2 (.keyword .GTFO)]
    [onLine 4 (.identifier chars!"a"), onLine 5 (.keyword .GTFO)] := by
  simp [SameSteps, onLine]

theorem Scan.same_place {code rest : Str} {p q : Position} {ts : List Token} (h : Scan code p ts rest q)
    (hr : rest.length = code.length) : p = q := by
  cases h with
  | refl => rfl
  | ws c code p ts code' p' hc hs =>
    have := hs.length_le
    simp at hr
    omega
  | tok lex rest ty p ts code' p' hl hs =>
    have := hs.length_le
    have := List.length_pos_iff.2 hl.ne_nil
    simp at hr
    omega

/-- **C95** In front of a lexeme that is no comma and has white space before it, an ellipsis and any white space, new lines
included, can be put: the result is the same up to positions. The strings before it must be ASCII. -/
theorem C95_text {a g b : Str} {ta tb : List Token} {u : Token}
    (h : tokenize (a ++ (g ++ b)) = .ok (.ok (ta ++ u :: tb))) (hg : WsOnly g) (hne : g ≠ [])
    (hend : ∀ t ∈ ta, t.range.stop.bytes ≤ utf8Len a) (hat : u.range.start.bytes = utf8Len (a ++ g))
    (hu : u.tokenType ≠ .comma)
    (hs : ∀ t ∈ ta, ∀ s, t.tokenType = .value (.string s) → ∀ c ∈ s, IsAscii c) {g' : Str} (hg' : WsOnly g') :
    unplacedResult (tokenizeAndParse (a ++ (g ++ (chars!"..." ++ (g' ++ b))))) =
      unplacedResult (tokenizeAndParse (a ++ (g ++ b))) := by
  obtain ⟨q, hq⟩ := tokenize_scan h
  obtain ⟨lex, post, -, h2⟩ := hq.before_token
  obtain ⟨pre, e1, e2, -⟩ := scan_prefix h2
  have e2 : u.range.start.bytes = (0 : Int) + utf8Len pre := e2
  obtain ⟨rfl, hb⟩ := append_inj_utf8 (a := a ++ g) (b := b) (c := pre) (d := lex ++ post)
    (by rw [List.append_assoc]; exact e1) (by rw [hat] at e2; omega)
  rw [← hb] at h2
  obtain ⟨q0, hq0⟩ := h2.stop_at a (g ++ b) rfl (by simp) (fun t ht => by
    have := hend t ht
    show _ ≤ (0 : Int) + _
    omega)
  obtain ⟨q1, hq1, hb1, hl1⟩ := scan_gap hg b q0
  have hold := hq0.trans hq1
  rw [List.append_nil] at hold
  obtain ⟨after, ha, hrun⟩ := scan_at (by rw [← tokenize_eq_run]; exact h) hold
  obtain rfl := List.append_cancel_left ha
  have hu1 : u.range.start = q1 := by
    obtain ⟨r, hr⟩ := run_ok_iff.1 hrun
    obtain ⟨lex', post', -, h3⟩ := Scan.before_token (ts := []) hr
    obtain ⟨pre, f1, f2, -⟩ := scan_prefix h3
    obtain ⟨pre', f1', f2', -⟩ := scan_prefix hold
    have f2' : q1.bytes = (0 : Int) + utf8Len pre' := f2'
    have : pre' = a ++ g := by
      have : a ++ g ++ b = pre' ++ b := by rw [List.append_assoc]; exact f1'
      exact (List.append_cancel_right this).symm
    rw [hat, f2', this] at f2
    cases pre with
    | cons c pre =>
      rw [utf8Len_cons] at f2
      have := utf8Size_pos c
      omega
    | nil =>
      rw [List.nil_append] at f1
      rw [← f1] at h3
      exact (h3.same_place rfl).symm
  have hdots := hq0.dots (y := '.' :: '.' :: (g' ++ b)) hg hne hs
  obtain ⟨q2, hq2, -, hl2⟩ := scan_gap hg (chars!"..." ++ (g' ++ b)) q0
  obtain ⟨q3, hq3, -, -⟩ := scan_gap hg' b (q2.afterLexeme chars!"...")
  have hnew := hdots.trans (hq2.trans (.tok chars!"..." (g' ++ b) .ellipsis q2 [] _ _ (.ellipsis _) (.refl _ _)))
  have hnew := hnew.trans hq3
  have t2 : tokenize (a ++ (g ++ (chars!"..." ++ (g' ++ b)))) = prepend _ _ := (tokenize_eq_run _).trans (run_scan hnew)
  have hsh := C18_position_independent b q1 q3 (b.length + 1) (by omega)
  rw [loop_eq_run (by omega), loop_eq_run (by omega), hrun] at hsh
  rw [hsh] at t2
  simp only [shiftOutcome, prepend, List.map_cons, List.nil_append, List.append_nil, List.append_assoc,
    List.cons_append] at t2
  refine (unplacedResult_parse t2).trans ?_
  rw [unplacedResult_parse h]
  rw [C95_tokens (u := u) (us := tb) rfl (by rw [hu1, hl1, hl2]) hu]
  have := steps_shift (l0 := q1.line) (dl := q3.line - q1.line) (dc := q3.column - q1.column)
    (db := q3.bytes - q1.bytes) (dch := q3.chars - q1.chars) (u :: tb) u.range.start.line
  exact this

-- `x` behind a string and a keyword with spaces; an ellipsis, two line ends and blanks in front of it.
example : ∃ ta u tb, tokenize (chars!"VISIBLE \"a\" BOTH SAEM" ++ (chars!" " ++ chars!"x AN y\nGTFO")) =
      .ok (.ok (ta ++ u :: tb)) ∧ (∀ t ∈ ta, t.range.stop.bytes ≤ (utf8Len chars!"VISIBLE \"a\" BOTH SAEM" : Int)) ∧
    u.range.start.bytes = (utf8Len (chars!"VISIBLE \"a\" BOTH SAEM" ++ chars!" ") : Int) ∧ u.tokenType ≠ .comma ∧
    ∀ t ∈ ta, ∀ s, t.tokenType = .value (.string s) → ∀ c ∈ s, IsAscii c := by
  refine ⟨[_, _, _], _, _, rfl, ?_, ?_, ?_, ?_⟩ <;> try decide +kernel
  intro t ht s h
  simp only [List.mem_cons, List.not_mem_nil, or_false] at ht
  rcases ht with rfl | rfl | rfl <;> cases h
  decide +kernel

/-- **C95** A comma is different: with an ellipsis before it a statement of its own ends there. -/
theorem C95_comma : ∃ nodes nodes', tokenizeAndParse chars!"HAI 1.2\n , GTFO" = .ok (.ok nodes) ∧
    tokenizeAndParse chars!"HAI 1.2\n ... , GTFO" = .ok (.ok nodes') ∧
    (errorsBlock nodes).length = 1 ∧ (errorsBlock nodes').length = 0 := by
  refine ⟨_, _, rfl, rfl, ?_⟩
  decide +kernel

end Lol
