import Verif.Props.EditLine
import Verif.Props.Layout
import Verif.Props.Crlf
import Verif.Parser.ShapeLemmas
import Verif.Lexer.SepLemmas

/-! # Commas and newlines (C94) -/

namespace Lol

/-- What a program gives, without positions: the tree, the error of the tokenizer, or the panic. -/
def unplacedResult : Out (Except TokenError Block) → Out (Except Unit Block)
  | .ok (.ok nodes) => .ok (.ok (mapBlock Token.unplaced nodes))
  | .ok (.error _) => .ok (.error ())
  | .panic s => .panic s
  | .outOfFuel => .outOfFuel

/-! ## Statements -/

/-- The same statements up to positions. -/
def Like (L M : List (List Token)) : Prop := L.map (List.map (·.tokenType)) = M.map (List.map (·.tokenType))

theorem like_push {t : Token} {A B : Stmts} (h : Like A.all B.all) : Like (A.push t).all (B.push t).all := by
  simp only [Like, Stmts.all, Stmts.push, List.map_cons, List.cons.injEq] at h ⊢
  exact ⟨⟨trivial, h.1⟩, h.2⟩

theorem like_nil {L M : List (List Token)} (h : Like L M) : Like (Stmts.all ⟨[], L⟩) (Stmts.all ⟨[], M⟩) := by
  simp only [Like] at h
  simp [Like, Stmts.all, h]

/-- What follows the tokens `ta` matters only through its statements. -/
private theorem split_after {X Y : List Token} (hg : Like (splitGap X) (splitGap Y)) : (ta : List Token) → ta ≠ [] →
    ta.getLast?.map (·.tokenType) ≠ some .ellipsis →
    (∀ t ∈ ta, Like (splitFrom X t.range.start.line).all (splitFrom Y t.range.start.line).all) →
    (∀ l, Like (splitFrom (ta ++ X) l).all (splitFrom (ta ++ Y) l).all) ∧
      Like (splitGap (ta ++ X)) (splitGap (ta ++ Y))
  | [], h, _, _ => absurd rfl h
  | t :: ta, _, hl, hx => by
    have hrest : (ta = [] ∧ t.tokenType ≠ .ellipsis) ∨ (ta ≠ [] ∧
        (∀ l, Like (splitFrom (ta ++ X) l).all (splitFrom (ta ++ Y) l).all) ∧
          Like (splitGap (ta ++ X)) (splitGap (ta ++ Y))) := by
      cases hta : ta with
      | nil => subst hta; exact .inl ⟨rfl, by simpa using hl⟩
      | cons u ta' =>
        refine .inr ⟨by simp, ?_⟩
        have := split_after hg (u :: ta') (by simp) (by rw [hta] at hl; simpa using hl)
          (fun t ht => hx t (by rw [hta]; exact List.mem_cons_of_mem _ ht))
        exact this
    have hgap : Like (splitGap (ta ++ X)) (splitGap (ta ++ Y)) := by
      rcases hrest with ⟨rfl, -⟩ | ⟨-, -, h⟩
      · exact hg
      · exact h
    have hline : Like (splitFrom (ta ++ X) t.range.start.line).all (splitFrom (ta ++ Y) t.range.start.line).all := by
      rcases hrest with ⟨rfl, -⟩ | ⟨-, h, -⟩
      · exact hx t List.mem_cons_self
      · exact h _
    have hell : t.tokenType = .ellipsis → ∀ l, Like (splitFrom (ta ++ X) (firstLine (ta ++ X) l)).all
        (splitFrom (ta ++ Y) (firstLine (ta ++ Y) l)).all := by
      intro he l
      rcases hrest with ⟨-, h⟩ | ⟨hne, h, -⟩
      · exact absurd he h
      · obtain ⟨u, ta', rfl⟩ := List.exists_cons_of_ne_nil hne
        exact h _
    constructor
    · intro l
      rw [List.cons_append, List.cons_append, splitFrom, splitFrom]
      split
      · exact like_nil hgap
      · split
        · rename_i hl
          split
          · rename_i he; exact hell he _
          · rw [← hl]; exact like_push hline
        · split
          · rename_i he; exact like_nil (hell he _)
          · exact like_nil (like_push hline)
    · rw [List.cons_append, List.cons_append, splitGap, splitGap]
      split
      · exact hgap
      · split
        · rename_i he; exact hell he _
        · exact like_push hline

theorem parse_like {ts us : List Token} (h : Like (split ts).all (split us).all) :
    mapOutcome Token.unplaced (parse ts) = mapOutcome Token.unplaced (parse us) := by
  refine C55_same (f := Token.unplaced) (fun _ => rfl) fun k => ?_
  have hm : ∀ vs : List Token, vs.map Token.unplaced = (vs.map (·.tokenType)).map fun ty =>
      (⟨ty, ⟨⟨0, 0, 0, 0⟩, ⟨0, 0, 0, 0⟩⟩⟩ : Token) := by
    intro vs
    simp [Token.unplaced]
  have h2 := congrArg (·[k]?) h
  simp only [List.getElem?_map] at h2
  have h3 : (stmt ts k).map (·.tokenType) = (stmt us k).map (·.tokenType) := by
    simp only [stmt, List.getD_eq_getElem?_getD]
    revert h2
    generalize (split ts).all[k]? = x, (split us).all[k]? = y
    cases x <;> cases y <;> simp
  rw [hm, hm, h3]

theorem steps_shift {l0 dl dc db dch : Int} : (ts : List Token) → (l : Int) →
    SameSteps l (l + dl) ts (ts.map (Token.shift l0 dl dc db dch))
  | [], _ => trivial
  | t :: ts, l => by
    refine ⟨rfl, ?_, steps_shift ts _⟩
    show _ ↔ t.range.start.line + dl = l + dl
    omega

theorem unplacedResult_parse {code : Str} {ts : List Token} (h : tokenize code = .ok (.ok ts)) :
    unplacedResult (tokenizeAndParse code) = unplacedResult (Out.bind (mapOutcome Token.unplaced (parse ts))
      fun b => Out.ok (Except.ok b)) := by
  have : tokenizeAndParse code = Out.bind (parse ts) fun b => Out.ok (Except.ok b) := by
    unfold tokenizeAndParse
    rw [h]
    rfl
  rw [this]
  have hid : ∀ b : Block, mapBlock Token.unplaced (mapBlock Token.unplaced b) = mapBlock Token.unplaced b := by
    intro b
    rw [mapBlock_map]
    rfl
  cases parse ts with
  | ok x => simp [Out.bind, mapOutcome, unplacedResult, hid]
  | panic s => rfl
  | outOfFuel => rfl

/-- The text before the comma or newline being read up to there in both cases. -/
private theorem sep_core {a b : Str} {ta : List Token} {q : Position} (h1 : Scan (a ++ ',' :: b) .first ta (',' :: b) q)
    (h2 : Scan (a ++ '\n' :: b) .first ta ('\n' :: b) q) (hne : ta ≠ [])
    (hl : ta.getLast?.map (·.tokenType) ≠ some .ellipsis) :
    unplacedResult (tokenizeAndParse (a ++ ',' :: b)) = unplacedResult (tokenizeAndParse (a ++ '\n' :: b)) := by
  have r1 := h1.trans (.tok [','] b .comma q [] b _ (.comma _) (.refl _ _))
  have r2 := h2.trans (.ws '\n' b q [] b _ (.inr (.inr rfl)) (.refl _ _))
  have t1 : tokenize (a ++ ',' :: b) = prepend _ _ := (tokenize_eq_run _).trans (run_scan r1)
  have t2 : tokenize (a ++ '\n' :: b) = prepend _ _ := (tokenize_eq_run _).trans (run_scan r2)
  have hs := C18_position_independent b (q.afterLexeme [',']) (q.afterWs '\n') (b.length + 1) (by omega)
  rw [loop_eq_run (by omega), loop_eq_run (by omega)] at hs
  rw [hs] at t2
  have hline : (q.afterWs '\n').line = (q.afterLexeme [',']).line + 1 := by
    unfold Position.afterWs; rfl
  have hlq : (q.afterLexeme [',']).line = q.line := rfl
  cases hr : run b (q.afterLexeme [',']) with
  | panic s =>
    rw [hr] at t1 t2
    unfold tokenizeAndParse
    rw [t1, t2]
    rfl
  | outOfFuel =>
    rw [hr] at t1 t2
    unfold tokenizeAndParse
    rw [t1, t2]
    rfl
  | ok r =>
    cases r with
    | error e =>
      rw [hr] at t1 t2
      unfold tokenizeAndParse
      rw [t1, t2]
      rfl
    | ok us =>
      rw [hr] at t1 t2
      simp only [prepend, shiftOutcome] at t1 t2
      obtain ⟨q', hq'⟩ := run_ok_iff.1 hr
      have hge := (scan_line_le hq').2
      have hta := (scan_line_le h1).2
      have hstep := steps_shift (l0 := (q.afterLexeme [',']).line)
        (dl := (q.afterWs '\n').line - (q.afterLexeme [',']).line)
        (dc := (q.afterWs '\n').column - (q.afterLexeme [',']).column)
        (db := (q.afterWs '\n').bytes - (q.afterLexeme [',']).bytes)
        (dch := (q.afterWs '\n').chars - (q.afterLexeme [',']).chars) us 0
      generalize hus : us.map _ = us' at hstep t2 ⊢
      have hge' : ∀ t ∈ us', q.line < t.range.start.line := by
        intro t ht
        rw [← hus] at ht
        obtain ⟨u, hu, rfl⟩ := List.mem_map.1 ht
        have := (hge u hu).1
        show _ < u.range.start.line + _
        omega
      have hg := (split_steps us us' _ _ hstep).2
      have hk := (split_after (X := ⟨.comma, ⟨q, q.afterLexeme [',']⟩⟩ :: us) (Y := us')
        (by rw [splitGap, if_pos rfl]; exact hg) ta hne hl (fun t ht => by
          rw [splitFrom, if_pos rfl]
          cases hu : us' with
          | nil =>
            rw [hu] at hg
            rw [splitFrom]
            exact like_nil (by simp only [splitGap] at hg; exact hg)
          | cons u us'' =>
            have hne : u.range.start.line ≠ t.range.start.line := by
              have := hge' u (by rw [hu]; exact List.mem_cons_self)
              have := (hta t ht).2
              omega
            rw [hu] at hg
            by_cases hc : u.tokenType = .comma
            · rw [splitFrom, if_pos hc]
              rw [splitGap, if_pos hc] at hg
              exact like_nil hg
            · rw [splitFrom, if_neg hc, if_neg hne]
              rw [splitGap, if_neg hc] at hg
              exact like_nil hg)).1
      obtain ⟨t, ta', rfl⟩ := List.exists_cons_of_ne_nil hne
      have hp := parse_like (ts := t :: ta' ++ ⟨.comma, ⟨q, q.afterLexeme [',']⟩⟩ :: us) (us := t :: ta' ++ us')
        (hk t.range.start.line)
      rw [unplacedResult_parse (ts := t :: ta' ++ ⟨.comma, ⟨q, q.afterLexeme [',']⟩⟩ :: us) (by rw [t1]; simp),
        unplacedResult_parse (ts := t :: ta' ++ us') (by rw [t2]; simp), hp]

theorem Scan.before_token {code rest : Str} {p q : Position} {ts us : List Token} {c : Token}
    (h : Scan code p (ts ++ c :: us) rest q) :
    ∃ lex post, Lexeme lex post c.tokenType ∧ Scan code p ts (lex ++ post) c.range.start := by
  generalize he : ts ++ c :: us = all at h
  induction h generalizing ts with
  | refl => simp at he
  | ws d code p all code' p' hc hs ih =>
    obtain ⟨lex, post, h1, h2⟩ := ih he
    exact ⟨lex, post, h1, .ws _ _ _ _ _ _ hc h2⟩
  | tok lex rest ty p all code' p' hl hs ih =>
    cases ts with
    | nil =>
      simp at he
      obtain ⟨rfl, -⟩ := he
      exact ⟨lex, rest, hl, .refl _ _⟩
    | cons t ts =>
      simp at he
      obtain ⟨rfl, rfl⟩ := he
      obtain ⟨lex', post, h1, h2⟩ := ih rfl
      exact ⟨lex', post, h1, .tok _ _ _ _ _ _ _ hl h2⟩

/-! ## C94: a comma is as good as a newline -/

/-- **C94** A comma behind lines (they have tokens, and do not end in an ellipsis or a single line comment) and a newline
there give the same result up to positions: the same tree, an error of the tokenizer, or the same panic. -/
theorem C94_comma {a : Str} {ta : List Token} (b : Str) (ha : LinesOf a ta) (hne : ta ≠ [])
    (hc : ∀ t s, ta.getLast? = some t → t.tokenType ≠ .commentSingleLine s) :
    unplacedResult (tokenizeAndParse (a ++ ',' :: b)) = unplacedResult (tokenizeAndParse (a ++ '\n' :: b)) := by
  obtain ⟨h1, h2, h3⟩ := ha
  obtain ⟨q, hq⟩ := tokenize_scan h1
  have hend : ∀ t ∈ ta, t.range.stop.bytes ≤ Position.first.bytes + utf8Len a := fun t ht => by
    have := h2 t ht
    show _ ≤ (0 : Int) + _
    omega
  obtain ⟨q', hq'⟩ := (hq.next_line a b rfl hend).stop_at a ('\n' :: b) rfl (by simp) hend
  exact sep_core (hq'.sep (.inr rfl) (.inl rfl) (.inr hc)) hq' hne h3

-- Inside a string and a comment of the next line nothing changes either.
example : ∃ ta, LinesOf chars!"I HAS A x\nIM IN YR l" ta ∧ ta ≠ [] ∧
    (∀ t s, ta.getLast? = some t → t.tokenType ≠ .commentSingleLine s) := by
  refine ⟨_, ⟨rfl, by decide +kernel, by decide +kernel⟩, by decide +kernel, ?_⟩
  intro t s h
  cases h
  exact TokenType.noConfusion

-- Behind a single line comment a comma is part of the comment.
example : (∃ nodes, tokenizeAndParse chars!"BTW a\nGTFO" = .ok (.ok nodes) ∧ nodes.length = 2) ∧
    ∃ nodes, tokenizeAndParse chars!"BTW a,GTFO" = .ok (.ok nodes) ∧ nodes.length = 1 :=
  ⟨⟨_, rfl, rfl⟩, ⟨_, rfl, rfl⟩⟩

-- Behind an ellipsis a comma ends the statement, a newline does not.
example : (∃ nodes, tokenizeAndParse chars!"GIMMEH ...\nx" = .ok (.ok nodes) ∧ errorsBlock nodes = []) ∧
    ∃ nodes, tokenizeAndParse chars!"GIMMEH ...,x" = .ok (.ok nodes) ∧ errorsBlock nodes ≠ [] :=
  ⟨⟨_, rfl, rfl⟩, ⟨_, rfl, by decide +kernel⟩⟩

/-- **C94** A comma that is a token of the source, with a token other than an ellipsis before it, can be replaced by a
newline: the result is the same up to positions. -/
theorem C94_newline {a b : Str} {ta tb : List Token} {c : Token} (h : tokenize (a ++ ',' :: b) = .ok (.ok (ta ++ c :: tb)))
    (hat : c.range.start.bytes = utf8Len a) (hne : ta ≠ [])
    (hl : ta.getLast?.map (·.tokenType) ≠ some .ellipsis) :
    unplacedResult (tokenizeAndParse (a ++ '\n' :: b)) = unplacedResult (tokenizeAndParse (a ++ ',' :: b)) := by
  obtain ⟨q, hq⟩ := tokenize_scan h
  obtain ⟨lex, post, h1, h2⟩ := hq.before_token
  obtain ⟨pre, g1, g2, -⟩ := scan_prefix h2
  have hpre : pre = a := by
    have g2 : c.range.start.bytes = 0 + _ := g2
    rcases List.append_eq_append_iff.1 g1 with ⟨u, e1, e2⟩ | ⟨u, e1, e2⟩
    · cases u with
      | nil => simpa using e1
      | cons e u =>
        rw [e1, utf8Len_append, utf8Len_cons] at g2
        have := utf8Size_pos e
        omega
    · cases u with
      | nil => simpa using e1.symm
      | cons e u =>
        rw [e1, utf8Len_append, utf8Len_cons] at hat
        have := utf8Size_pos e
        omega
  subst hpre
  rw [← List.append_cancel_left g1] at h2
  exact (sep_core h2 (h2.sep (.inl rfl) (.inr rfl) (.inl rfl)) hne hl).symm

-- The last comma of three, with a comment in the line before; the comma in the string is none.
example : ∃ ta c tb, tokenize (chars!"x R \",\",GTFO BTW a\n" ++ ',' :: chars!"GTFO") = .ok (.ok (ta ++ c :: tb)) ∧
    c.range.start.bytes = (utf8Len chars!"x R \",\",GTFO BTW a\n" : Int) ∧ ta ≠ [] ∧
    ta.getLast?.map (·.tokenType) ≠ some .ellipsis := by
  refine ⟨[_, _, _, _, _, _], _, _, rfl, ?_⟩
  decide +kernel

/-- **C94** A comma before all other tokens does not matter, unless an ellipsis follows it. -/
theorem C94_leading {c : Token} {us : List Token} (hc : c.tokenType = .comma)
    (hu : us.head?.map (·.tokenType) ≠ some .ellipsis) : parse (c :: us) = parse us := by
  have hs : split (c :: us) = ⟨[], splitGap us⟩ := by
    show splitFrom (c :: us) _ = _
    rw [splitFrom, if_pos hc]
  cases us with
  | nil => rw [parse_eq, parse_eq, hs]; rfl
  | cons u us =>
    have he : u.tokenType ≠ .ellipsis := by simpa using hu
    by_cases hk : u.tokenType = .comma
    · have hs' : split (u :: us) = ⟨[], splitGap us⟩ := by
        show splitFrom (u :: us) _ = _
        rw [splitFrom, if_pos hk]
      rw [splitGap, if_pos hk] at hs
      rw [parse_eq, parse_eq, hs, hs']
    · have hg : split (u :: us) = (splitFrom us u.range.start.line).push u := by
        show splitFrom (u :: us) u.range.start.line = _
        rw [splitFrom, if_neg hk, if_pos rfl, if_neg he]
      have hne : ¬ Stop [] (split (u :: us)) := by
        rw [hg]
        simp [Stop, Stmts.push]
      have hstep : StepR (split (c :: u :: us)) (.ok [] (split (u :: us))) := by
        rw [hs, splitGap, if_neg hk, if_neg he, ← hg]
        exact .empty
      cases hp : parse (u :: us) with
      | ok nodes =>
        obtain ⟨s, h⟩ := (C53_tree_iff _ _).1 hp
        exact (C53_tree_iff _ _).2 ⟨s, .more hstep hne h⟩
      | panic p => exact (C53_panic_iff _ _).2 (.more hstep hne ((C53_panic_iff _ _).1 hp))
      | outOfFuel => exact absurd hp (C20_terminates _)

-- Before two statements, the second with a token too many.
example : ∃ c us, tokenize chars!",GTFO\nGTFO x" = .ok (.ok (c :: us)) ∧ c.tokenType = .comma ∧
    us.head?.map (·.tokenType) ≠ some .ellipsis ∧ us.length = 3 := by
  refine ⟨_, _, rfl, ?_⟩
  decide +kernel

-- With an ellipsis after the comma and another comma after that, nothing is read at all.
example : (∃ nodes, tokenizeAndParse chars!",...,GTFO" = .ok (.ok nodes) ∧ nodes.length = 0) ∧
    ∃ nodes, tokenizeAndParse chars!"...,GTFO" = .ok (.ok nodes) ∧ nodes.length = 1 :=
  ⟨⟨_, rfl, rfl⟩, ⟨_, rfl, rfl⟩⟩

/-- **C94** A source whose first lexeme is a comma gives what the text after the comma gives, up to positions, unless
that begins with an ellipsis. -/
theorem C94_first {ws b : Str} (hw : WsOnly ws)
    (hb : ∀ us, tokenize b = .ok (.ok us) → us.head?.map (·.tokenType) ≠ some .ellipsis) :
    unplacedResult (tokenizeAndParse (ws ++ ',' :: b)) = unplacedResult (tokenizeAndParse b) := by
  obtain ⟨q, h1, -, -⟩ := scan_gap hw (',' :: b) .first
  have r1 := h1.trans (.tok [','] b .comma q [] b _ (.comma _) (.refl _ _))
  have t1 : tokenize (ws ++ ',' :: b) = prepend _ _ := (tokenize_eq_run _).trans (run_scan r1)
  have hs := C18_position_independent b .first (q.afterLexeme [',']) (b.length + 1) (by omega)
  rw [loop_eq_run (by omega), loop_eq_run (by omega)] at hs
  rw [hs] at t1
  have t2 : tokenize b = run b .first := tokenize_eq_run _
  cases hr : run b .first with
  | panic s =>
    rw [hr] at t1 t2
    unfold tokenizeAndParse
    rw [t1, t2]
    rfl
  | outOfFuel =>
    rw [hr] at t1 t2
    unfold tokenizeAndParse
    rw [t1, t2]
    rfl
  | ok r =>
    cases r with
    | error e =>
      rw [hr] at t1 t2
      unfold tokenizeAndParse
      rw [t1, t2]
      rfl
    | ok us =>
      rw [hr] at t1 t2
      simp only [prepend, shiftOutcome] at t1
      rw [unplacedResult_parse t1, unplacedResult_parse t2]
      have hstep := steps_shift (l0 := Position.first.line) (dl := (q.afterLexeme [',']).line - Position.first.line)
        (dc := (q.afterLexeme [',']).column - Position.first.column)
        (db := (q.afterLexeme [',']).bytes - Position.first.bytes)
        (dch := (q.afterLexeme [',']).chars - Position.first.chars) us 0
      generalize hus : us.map _ = us' at hstep t1 ⊢
      have hhead : us'.head?.map (·.tokenType) = us.head?.map (·.tokenType) := by
        rw [← hus]
        cases us <;> rfl
      show unplacedResult (Out.bind (mapOutcome Token.unplaced (parse (_ :: us'))) _) = _
      rw [C94_leading rfl (by rw [hhead]; exact hb us t2),
        parse_like (ts := us') (us := us) (split_steps us us' _ _ (hstep.first _ _)).1.symm]

-- The text after the comma may have errors, or be no program at all.
example : WsOnly chars!" \n" ∧ (∀ us, tokenize chars!",GTFO x\nHAI 1 " = .ok (.ok us) →
    us.head?.map (·.tokenType) ≠ some .ellipsis) := by
  refine ⟨by simp [WsOnly, IsWs], fun us h => ?_⟩
  cases h
  decide +kernel

end Lol
