import Verif.Lexer.BlankSpec
import Verif.Lexer.RenameLemmas
import Verif.Lexer.DotsLemmas
import Verif.Parser.CutLemmas

/-! # Helper lemmas: lexemes left out of a source text -/

namespace Lol

/-- The text is over, or white space stands here. -/
def Open (x : Str) : Prop := x = [] ∨ ∃ d r, x = d :: r ∧ IsWs d

/-- `y` is `x` without a lexeme that has white space before and after it. -/
inductive Blanked : Str → Str → Prop
  | mk (w s x : Str) (c : Char) : IsWs c → s ≠ [] → Open x → Blanked (w ++ c :: (s ++ x)) (w ++ c :: x)

theorem Blanked.prepend (a : Str) {x y : Str} (h : Blanked x y) : Blanked (a ++ x) (a ++ y) := by
  cases h with
  | mk w s x c hc hs ho =>
    have := Blanked.mk (a ++ w) s x c hc hs ho
    simpa using this

theorem Blanked.head {x y : Str} (h : Blanked x y) : ∃ c r r', x = c :: r ∧ y = c :: r' := by
  cases h with
  | mk w s x c hc hs ho =>
    cases w with
    | nil => exact ⟨c, _, _, rfl, rfl⟩
    | cons e w => exact ⟨e, _, _, rfl, rfl⟩

theorem Blanked.prefix_old {x y : Str} {j : Keyword} (a : Str) (h : Blanked x y) (hp : j.spelling <+: a ++ y) :
    j.spelling <+: a ++ x := by
  cases h with
  | mk w s x c hc hs ho =>
    have : j.spelling <+: a ++ w ++ [c] := by
      rcases ho with rfl | ⟨d, r, rfl, hd⟩
      · simpa using hp
      · have hw : WideGap [c, d] := ⟨fun e he => by
          simp only [List.mem_cons, List.not_mem_nil, or_false] at he
          rcases he with rfl | rfl <;> assumption, by simp, by simp⟩
        have := keyword_before_gap j.spaced j.spelling_chars hw (a := a ++ w) (y := r) (by simpa using hp)
        exact this.trans ⟨[c], by simp⟩
    exact this.trans ⟨s ++ x, by simp⟩

/-- A number in the new text was one in the old. -/
theorem Blanked.number {a x y lex r : Str} {n : NumberToken} (h : Blanked x y) (he : a ++ y = lex ++ r)
    (hn : NumberLexeme lex r n) : ∃ r', a ++ x = lex ++ r' ∧ NumberLexeme lex r' n := by
  cases h with
  | mk w s x c hc hs ho =>
    rw [← List.append_assoc] at he
    have hlt : ∃ u, a ++ w = lex ++ u ∧ r = u ++ c :: x := by
      rcases List.append_eq_append_iff.1 he with ⟨u, g1, g2⟩ | ⟨u, g1, g2⟩
      · cases u with
        | nil => exact ⟨[], by simpa using g1.symm, by simpa using g2.symm⟩
        | cons e u =>
          simp only [List.cons_append, List.cons.injEq] at g2
          obtain ⟨rfl, -⟩ := g2
          exact absurd (by rw [g1]; simp) (hn.no_ws hc)
      · exact ⟨u, g1, g2⟩
    obtain ⟨u, hu, hr⟩ := hlt
    refine ⟨u ++ c :: (s ++ x), by rw [← List.append_assoc, hu]; simp, ?_⟩
    subst hr
    cases u with
    | nil => exact hn.change _ (.inl rfl)
    | cons e u => exact hn.change _ (.inl rfl)

/-- A lexeme stays one when a lexeme after it is left out. -/
theorem Lexeme.blanked {lex rest rest' : Str} {ty : TokenType} (h : Lexeme lex rest ty)
    (hm : ∀ s, ty = .value (.string s) → ∀ c ∈ s, IsAscii c) (hw : Blanked rest rest') : Lexeme lex rest' ty := by
  obtain ⟨e, r, r', he, he'⟩ := hw.head
  cases h with
  | comma => exact .comma _
  | bang => exact .bang _
  | btw body rest h1 h2 =>
    refine .btw body _ h1 ?_
    rcases h2 with rfl | ⟨q, rfl⟩
    · cases he
    · cases he
      exact .inr ⟨_, he'⟩
  | obtw body rest h1 =>
    refine .obtw body _ ?_
    intro u v huv
    apply Classical.byContradiction
    intro hlt
    have hlt : u.length < body.length := by omega
    have h4 : (u ++ chars!"TLDR") <+: body ++ chars!"TLDR" := by
      have p1 : (u ++ chars!"TLDR") <+: (body ++ chars!"TLDR") ++ rest' :=
        ⟨v, by rw [List.append_assoc, ← huv, List.append_assoc]⟩
      exact List.prefix_of_prefix_length_le p1 (List.prefix_append _ _) (by simp; omega)
    obtain ⟨w, hw⟩ := h4
    have := h1 u (w ++ rest) (by
      rw [← List.append_assoc, ← hw]; simp)
    omega
  | slot => exact .slot _
  | ellipsis => exact .ellipsis _
  | win => exact .win _
  | fail => exact .fail _
  | noob => exact .noob _
  | keyword k rest h1 h2 h3 h4 h5 h6 =>
    exact .keyword k _ (fun j hj hp => h1 j hj (hw.prefix_old _ hp)) h2 h3 h4 h5 h6
  | number lex rest n h1 =>
    subst he he'
    exact .number _ _ _ (h1.change _ (.inl rfl))
  | stringClosed body after pay c rest h1 h2 h3 h4 =>
    have m1 := hm pay rfl
    have hl : pay.length = body.length := by rw [← h3, utf8Len_ascii m1]
    have := (List.cons.inj h2).2
    obtain ⟨rfl, h5⟩ := List.append_inj this (by omega)
    cases h5
    exact .stringClosed body rest' body '"' rest' h1 rfl h3 h4
  | stringOpen body h1 => cases he
  | identifier name rest h1 h2 h3 h4 =>
    refine .identifier _ _ h1 h2 ?_ fun k hp => h4 k (hw.prefix_old _ hp)
    intro c q hq
    rw [he'] at hq
    cases hq
    exact h3 _ _ he
  | symbol c rest h1 h2 h3 h4 h5 h6 h7 h8 h9 =>
    refine .symbol c _ h1 h2 h3 h4 h5 h6 ?_ ?_ ?_
    · rintro ⟨q, hq⟩
      simp only [List.cons_append, List.cons.injEq] at hq
      obtain ⟨rfl, hq⟩ := hq
      rw [he'] at hq
      cases hq
      exact h7 ⟨r, by rw [he]; rfl⟩
    · rintro ⟨q, hq⟩
      simp only [List.cons_append, List.cons.injEq] at hq
      obtain ⟨rfl, hq⟩ := hq
      cases hw with
      | mk w s x c hc hs ho =>
        have hne : c ≠ '.' := by rintro rfl; revert hc; unfold IsWs; decide
        match w with
        | [] => simp at hq; exact hne hq.1.symm
        | [f] => simp at hq; exact hne hq.2.1.symm
        | f :: f' :: w =>
          simp at hq
          refine h8 ⟨w ++ c :: (s ++ x), ?_⟩
          simp [← hq.1, ← hq.2.1]
    · intro lex x n hx hn
      obtain ⟨q, h10, h11⟩ := hw.number (a := [c]) hx hn
      exact h9 _ _ _ h10 h11

/-- The white space at the end of the text when the pieces `bs` get the white space `g` before them (`closeUp`). -/
def closeTail (g : Str) (bs : List Piece) (tail : Str) : Str := if bs.isEmpty then g ++ tail else tail

theorem layout_closeUp (g : Str) (bs : List Piece) (tail : Str) :
    layout (closeUp g bs) (closeTail g bs tail) = g ++ layout bs tail := by
  cases bs <;> simp [closeUp, closeTail, layout]

theorem Lexed.blanked {as bs : List Piece} {p : Piece} {tail : Str} (h : Lexed (as ++ p :: bs) tail) (hg : p.gap ≠ [])
    (ho : Open (layout bs tail))
    (hm : ∀ q ∈ as, ∀ s, q.type = .value (.string s) → ∀ c ∈ s, IsAscii c) :
    Lexed (as ++ closeUp p.gap bs) (closeTail p.gap bs tail) := by
  induction as with
  | nil =>
    obtain ⟨h1, h2, h3⟩ := h
    have hws : ∀ {x : Str}, WsOnly x → WsOnly (p.gap ++ x) := fun hx c hc =>
      (List.mem_append.1 hc).elim (h1 c) (hx c)
    cases bs with
    | nil => exact hws h3
    | cons q bs => exact ⟨hws h3.1, h3.2.1, h3.2.2⟩
  | cons q as ih =>
    obtain ⟨h1, h2, h3⟩ := h
    refine ⟨h1, ?_, ih h3 fun q hq => hm q (by simp [hq])⟩
    refine h2.blanked (hm q (by simp)) ?_
    show Blanked (layout (as ++ p :: bs) tail) (layout (as ++ closeUp p.gap bs) (closeTail p.gap bs tail))
    have hp := h3.suffix (a := as)
    rw [layout_append, layout_append, layout_closeUp]
    refine Blanked.prepend _ ?_
    rcases List.eq_nil_or_concat p.gap with h4 | ⟨u, c, h4⟩
    · exact absurd h4 hg
    · have hc : IsWs c := hp.1 c (by simp [h4])
      have hl : p.lex ≠ [] := by
        obtain ⟨c, r, h5, -⟩ := hp.2.1.head_not_ws
        simp [h5]
      have := Blanked.mk u p.lex (layout bs tail) c hc hl ho
      simp only [layout, h4]
      simpa using this

end Lol
