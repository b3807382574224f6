import Verif.Props.EditRun
import Verif.Props.ParserBlocks
import Verif.Lexer.TrailLemmas
import Verif.Parser.ErrorCount

/-! # Properties of `tokenize_and_parse`: lines with a comment (C47) -/

namespace Lol

/-- The text is a comment of the given type, perhaps after white space. -/
inductive CommentText : Str → TokenType → Prop
  | single (w body : Str) : WsOnly w → '\n' ∉ body →
      CommentText (w ++ (chars!"BTW" ++ body)) (.commentSingleLine body)
  | multi (w body : Str) : WsOnly w →
      -- `TLDR` is not in the text before its end
      (∀ u v, body ++ chars!"TLDR" = u ++ (chars!"TLDR" ++ v) → body.length ≤ u.length) →
      CommentText (w ++ (chars!"OBTW" ++ body ++ chars!"TLDR")) (.commentMultiLine body)

theorem scan_ws {w : Str} (h : WsOnly w) (rest : Str) (p : Position) : ∃ q, Scan (w ++ rest) p [] rest q ∧
    q.bytes = p.bytes + utf8Len w := by
  induction w generalizing p with
  | nil => exact ⟨p, .refl _ _, by simp⟩
  | cons c w ih =>
    obtain ⟨q, hq, hb⟩ := ih (fun d hd => h d (by simp [hd])) (p.afterWs c)
    have hc := h c (by simp)
    refine ⟨q, .ws _ _ _ _ _ _ hc hq, ?_⟩
    rw [hb, afterWs_bytes, utf8Len_cons, hc.size]
    omega

theorem CommentText.tokens {m : Str} {ty : TokenType} (h : CommentText m ty) :
    ∃ r, LinesOf m [⟨ty, r⟩] := by
  have key : ∀ (w lex : Str), WsOnly w → Lexeme lex ['\n'] ty → ty ≠ .ellipsis → m = w ++ lex →
      ∃ r, LinesOf m [⟨ty, r⟩] := by
    rintro w lex hw hl hne rfl
    obtain ⟨q, hq, hb⟩ := scan_ws hw (lex ++ ['\n']) .first
    have h1 := hq.trans (.tok lex ['\n'] ty q [] [] _ hl (.ws '\n' [] _ [] [] _ (.inr (.inr rfl)) (.refl _ _)))
    refine ⟨⟨q, q.afterLexeme lex⟩, ?_, ?_, ?_⟩
    · rw [tokenize_eq_run]
      exact run_ok_iff.2 ⟨_, by simpa using h1⟩
    · intro t ht
      rw [List.mem_singleton.1 ht]
      have : Position.first.bytes = 0 := rfl
      simp only [Position.afterLexeme, utf8Len_append]
      omega
    · simpa using hne
  cases h with
  | single w body hw hb => exact key w _ hw (.btw body ['\n'] hb (.inr ⟨_, rfl⟩)) (by simp) rfl
  | multi w body hw hb =>
    refine key w _ hw (.obtw body ['\n'] ?_) (by simp) rfl
    intro u v he
    apply Classical.byContradiction
    intro hlt
    have h4 : (u ++ chars!"TLDR") <+: body ++ chars!"TLDR" := by
      have p1 : (u ++ chars!"TLDR") <+: (body ++ chars!"TLDR") ++ ['\n'] :=
        ⟨v, by rw [List.append_assoc, ← he, List.append_assoc]⟩
      exact List.prefix_of_prefix_length_le p1 (List.prefix_append _ _) (by simp; omega)
    obtain ⟨x, hx⟩ := h4
    have := hb u x (by rw [← hx]; simp)
    omega

theorem CommentText.split {m : Str} {ty : TokenType} (h : CommentText m ty) (r : Range) :
    Lol.split [⟨ty, r⟩] = ⟨[⟨ty, r⟩], []⟩ := by
  cases h <;> simp [Lol.split, splitFrom, firstLine, Stmts.push]

theorem CommentText.parse {m : Str} {ty : TokenType} (h : CommentText m ty) (r : Range) :
    Lol.parse [⟨ty, r⟩] = .ok [.astError (.unexpectedToken ⟨ty, r⟩)] := by
  rw [parse_eq, h.split r]
  cases h <;> rfl

theorem CommentText.statements {m : Str} {ty : TokenType} (hm : CommentText m ty) : SomeStatements m := by
  obtain ⟨r, hr⟩ := hm.tokens
  refine ⟨_, hr, ?_⟩
  intro st hst
  have : st = [⟨ty, r⟩] := by
    rw [hm.split r] at hst
    exact List.mem_singleton.1 hst
  refine ⟨_, [], this, ?_, ?_⟩
  · intro k _ hk
    have hk : ty = _ := hk
    cases hm <;> cases hk
  · intro k _ hk
    have hk : ty = _ := hk
    cases hm <;> cases hk

/-- The nodes `x`, and the same ones followed by the error for a comment. -/
def ThenComment (ty : TokenType) (x x' : Block) : Prop :=
  x' = x ++ [.astError (.unexpectedToken (Token.unplaced ⟨ty, ⟨.first, .first⟩⟩))]

/-- **C47** A line with just a comment, put after a line that is one statement, changes the tree only there, at any
depth: after the nodes of that line there is one more node, the error for the comment. (Or the tree stays the same: the
lines are after an empty statement, or in a construct that is dropped.) Missing for the claim: the error. -/
theorem C47_line_partial {a l m b : Str} {ta : List Token} {ty : TokenType} (ha : LinesOf a ta) (hl : OneStatement l)
    (hm : CommentText m ty) {nodes : Block}
    (h : tokenizeAndParse (a ++ '\n' :: (l ++ '\n' :: b)) = .ok (.ok nodes)) :
    ∃ nodes', tokenizeAndParse (a ++ '\n' :: (l ++ '\n' :: (m ++ '\n' :: b))) = .ok (.ok nodes') ∧
      (mapBlock Token.unplaced nodes' = mapBlock Token.unplaced nodes ∨
        Edited (ThenComment ty) (mapBlock Token.unplaced nodes) (mapBlock Token.unplaced nodes')) := by
  obtain ⟨r, hr⟩ := hm.tokens
  have hs := hm.statements
  have hp := tokenizeAndParse_of hr.1 (hm.parse r)
  obtain ⟨nodes', h1⟩ := C80_no_fail ha hl hs h hp
  refine ⟨nodes', h1, (C80_lines ha hl hs h h1).imp_right fun h2 => h2.mono fun x x' hw => ?_⟩
  obtain ⟨-, y, h3, h4⟩ := hw
  rw [hp] at h3
  cases h3
  exact h4

-- After `GTFO` in a loop.
example : (∃ ta, LinesOf chars!"IM IN YR l" ta) ∧ OneStatement chars!"GTFO" ∧
    CommentText chars!"  BTW stop" (.commentSingleLine chars!" stop") ∧
    ∃ nodes, tokenizeAndParse (chars!"IM IN YR l" ++ '\n' :: (chars!"GTFO" ++ '\n' :: chars!"IM OUTTA YR l\n")) =
      .ok (.ok nodes) ∧ errorFreeBlock nodes := by
  refine ⟨⟨_, rfl, by decide +kernel⟩, ⟨_, _, ⟨rfl, by decide +kernel⟩, rfl, _, _, rfl, by decide +kernel⟩,
    .single chars!"  " _ (by unfold WsOnly; decide) (by decide), _, rfl, ?_⟩
  simp [errorFreeBlock, Node.ErrorFree]

/-- **C47** After a program without errors and without empty statements, such a line is exactly one error, the one for
the comment. Missing for the claim: just this error. -/
theorem C47_one_error_partial {a l m b : Str} {ta ts : List Token} {ty : TokenType} (ha : LinesOf a ta)
    (hl : OneStatement l) (hm : CommentText m ty) {nodes : Block}
    (h : tokenizeAndParse (a ++ '\n' :: (l ++ '\n' :: b)) = .ok (.ok nodes)) (he : errorFreeBlock nodes)
    (ht : tokenize (a ++ '\n' :: (l ++ '\n' :: b)) = .ok (.ok ts)) (hs : [] ∉ (split ts).all) :
    ∃ nodes' t, tokenizeAndParse (a ++ '\n' :: (l ++ '\n' :: (m ++ '\n' :: b))) = .ok (.ok nodes') ∧
      errorsBlock nodes' = [.unexpectedToken t] ∧ t.tokenType = ty := by
  obtain ⟨nodes', h1, -⟩ := C47_line_partial ha hl hm h
  have key : Edited (ThenComment ty) (mapBlock Token.unplaced nodes) (mapBlock Token.unplaced nodes') := by
    obtain ⟨r, hr⟩ := hm.tokens
    have hp := tokenizeAndParse_of hr.1 (hm.parse r)
    refine (C80_lines_there ha hl hm.statements h h1 ht hs).mono fun x x' hw => ?_
    obtain ⟨-, y, h3, h4⟩ := hw
    rw [hp] at h3
    cases h3
    exact h4
  rcases key.errors with ⟨h2, -⟩ | ⟨p, q, x, x', hw, h2, h3⟩
  · rw [errorsBlock_map, (errorFreeBlock_errors nodes).1 he] at h2
    exact absurd rfl h2
  · rw [errorsBlock_map, (errorFreeBlock_errors nodes).1 he] at h2
    obtain ⟨rfl, h5⟩ := List.append_eq_nil_iff.1 h2.symm
    obtain ⟨h4, rfl⟩ := List.append_eq_nil_iff.1 h5
    rw [hw, errorsBlock_append, h4, errorsBlock_map] at h3
    simp only [errorsBlock, Node.errors, List.nil_append, List.append_nil, List.map_eq_singleton_iff] at h3
    obtain ⟨e, h5, h6⟩ := h3
    cases e <;> cases h6
    exact ⟨nodes', _, h1, h5, rfl⟩
-- After `GTFO` in a loop, as above; no statement is empty.
example : ∃ ts, tokenize (chars!"IM IN YR l" ++ '\n' :: (chars!"GTFO" ++ '\n' :: chars!"IM OUTTA YR l\n")) = .ok (.ok ts) ∧
    [] ∉ (split ts).all := by
  refine ⟨_, rfl, ?_⟩
  decide +kernel

-- A comment over two lines.
example : CommentText chars!"OBTW p\nq TLDR" (.commentMultiLine chars!" p\nq ") := by
  refine .multi [] chars!" p\nq " (by unfold WsOnly; decide) ?_
  intro u v h
  have h1 := congrArg List.length h
  simp at h1
  match u, h with
  | [], h | [_], h | [_, _], h | [_, _, _], h | [_, _, _, _], h => simp at h
  | _ :: _ :: _ :: _ :: _ :: _, _ => simp

end Lol
