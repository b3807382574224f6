import Verif.Lexer.SepLemmas

/-! # Helper lemmas: an ellipsis behind white space -/

namespace Lol

theorem IsWs.not_number {c : Char} (h : IsWs c) : ¬ IsDigit c ∧ c ≠ '.' := by
  rcases h with rfl | rfl | rfl <;> decide

theorem IsWs.not_ident {c : Char} (h : IsWs c) : ¬ IsIdent c := by
  rcases h with rfl | rfl | rfl <;> decide

theorem Keyword.no_dot (k : Keyword) : '.' ∉ k.spelling := by cases k <;> decide

theorem NumberLexeme.no_ws {lex rest : Str} {n : NumberToken} (h : NumberLexeme lex rest n) {c : Char}
    (hc : IsWs c) : c ∉ lex := by
  have hd : ∀ ds : Str, (∀ d ∈ ds, IsDigit d) → c ∉ ds := fun ds h hm => hc.not_number.1 (h _ hm)
  have hs : ∀ s : Str, IsSign s → c ∉ s := by
    rintro s (rfl | rfl | rfl)
    · simp
    · rcases hc with rfl | rfl | rfl <;> decide
    · rcases hc with rfl | rfl | rfl <;> decide
  cases h with
  | int sgn ds c rest h1 h2 h3 => simp [hs _ h1, hd _ h3]
  | float sgn ds es e rest x h1 h2 h3 h4 => simp [hs _ h1, hd _ h3, hd _ h4, hc.not_number.2]

theorem not_prefix_dots {s x b y : Str} {d : Char} (hs : '.' ∉ s) (h : ¬ s <+: x ++ d :: b) :
    ¬ s <+: x ++ d :: '.' :: y := by
  intro hp
  have hp : s <+: (x ++ [d]) ++ '.' :: y := by simpa using hp
  refine h ((prefix_before_char hs hp).trans ⟨b, by simp⟩)

/-- A lexeme with white space somewhere behind it stays one when dots follow that white space. -/
theorem Lexeme.dots {lex v b y : Str} {d : Char} {ty : TokenType} (hd : IsWs d) (h : Lexeme lex (v ++ d :: b) ty)
    (hs : ∀ s, ty = .value (.string s) → ∀ c ∈ s, IsAscii c) : Lexeme lex (v ++ d :: '.' :: y) ty := by
  generalize he : v ++ d :: b = rest at h
  cases h with
  | comma => exact .comma _
  | bang => exact .bang _
  | btw body rest h1 h2 =>
    refine .btw body _ h1 (.inr ?_)
    rcases h2 with rfl | ⟨x, rfl⟩
    · simp at he
    · cases v with
      | nil => simp at he; exact ⟨'.' :: y, by simp [he.1]⟩
      | cons e v => simp at he; exact ⟨v ++ d :: '.' :: y, by simp [he.1]⟩
  | obtw body rest h1 =>
    refine .obtw body _ ?_
    intro u w huv
    apply Classical.byContradiction
    intro hlt
    have h4 : (u ++ chars!"TLDR") <+: body ++ chars!"TLDR" := by
      have p1 : (u ++ chars!"TLDR") <+: (body ++ chars!"TLDR") ++ (v ++ d :: '.' :: y) :=
        ⟨w, by rw [List.append_assoc, ← huv, List.append_assoc]⟩
      exact List.prefix_of_prefix_length_le p1 (List.prefix_append _ _) (by simp; omega)
    obtain ⟨z, hz⟩ := h4
    have := h1 u (z ++ rest) (by rw [← List.append_assoc, ← hz]; simp)
    omega
  | slot => exact .slot _
  | ellipsis => exact .ellipsis _
  | win => exact .win _
  | fail => exact .fail _
  | noob => exact .noob _
  | keyword k rest h1 h2 h3 h4 h5 h6 =>
    subst he
    refine .keyword k _ ?_ h2 h3 h4 h5 h6
    intro j hj
    rw [← List.append_assoc]
    exact not_prefix_dots j.no_dot (by rw [List.append_assoc]; exact h1 j hj)
  | number lex rest n h1 =>
    subst he
    cases v with
    | nil => exact .number _ _ _ (h1.change _ (.inr hd.not_number))
    | cons e r => exact .number _ _ _ h1.rest_head
  | stringClosed body after pay c rest h1 h2 h3 h4 =>
    have h2 := (List.cons.inj h2).2
    have hp := hs _ rfl
    rw [utf8Len_ascii hp] at h3
    obtain ⟨e1, e2⟩ := List.append_inj h2 h3.symm
    simp at e2
    obtain ⟨rfl, rfl⟩ := e2
    subst e1
    exact .stringClosed body _ body _ _ h1 rfl (utf8Len_ascii hp) h4
  | stringOpen body h1 => simp at he
  | identifier name rest h1 h2 h3 h4 =>
    subst he
    refine .identifier _ _ h1 h2 ?_ ?_
    · intro e x hx
      cases v with
      | nil => cases hx; exact hd.not_ident
      | cons g r => cases hx; exact h3 _ _ rfl
    · intro k
      rw [← List.append_assoc]
      exact not_prefix_dots k.no_dot (by rw [List.append_assoc]; exact h4 k)
  | symbol c rest h1 h2 h3 h4 h5 h6 h7 h8 h9 =>
    subst he
    have hdots : ∀ s : Str, d ∉ s → ¬ s <+: c :: (v ++ d :: b) → ¬ s <+: c :: (v ++ d :: '.' :: y) :=
      fun s hm hn hp => hn ((prefix_before_char (x := c :: v) hm hp).trans (List.prefix_append _ _))
    refine .symbol c _ h1 h2 h3 h4 h5 h6 ?_ ?_ ?_
    · exact hdots _ (by rcases hd with rfl | rfl | rfl <;> decide) h7
    · exact hdots _ (by rcases hd with rfl | rfl | rfl <;> decide) h8
    · intro lex x n hx hn
      have hp : lex <+: c :: v := prefix_before_char (x := c :: v) (hn.no_ws hd) ⟨x, hx.symm⟩
      obtain ⟨w, hw⟩ := hp
      have hx' : x = w ++ d :: '.' :: y := by
        have : lex ++ x = lex ++ (w ++ d :: '.' :: y) := by
          rw [← hx, ← List.append_assoc, hw]; rfl
        exact List.append_cancel_left this
      subst hx'
      refine h9 lex (w ++ d :: b) n (by rw [← List.append_assoc, hw]; rfl) ?_
      cases w with
      | nil => exact hn.change _ (.inr hd.not_number)
      | cons e w => exact hn.rest_head

/-- What stands before white space is read in the same way when dots follow. -/
theorem Scan.dots {a g b y : Str} (hg : WsOnly g) (hne : g ≠ []) {p q : Position} {ts : List Token}
    (h : Scan (a ++ (g ++ b)) p ts (g ++ b) q)
    (hs : ∀ t ∈ ts, ∀ s, t.tokenType = .value (.string s) → ∀ c ∈ s, IsAscii c) :
    Scan (a ++ (g ++ '.' :: y)) p ts (g ++ '.' :: y) q := by
  have hgd : ∃ g' d, IsWs d ∧ g = g' ++ [d] := by
    rcases List.eq_nil_or_concat g with rfl | ⟨g', d, rfl⟩
    · exact absurd rfl hne
    · exact ⟨g', d, hg d (by simp), by simp⟩
  obtain ⟨g', d, hd, rfl⟩ := hgd
  generalize he : a ++ (g' ++ [d] ++ b) = code at h
  generalize hr : g' ++ [d] ++ b = rest at h
  induction h generalizing a with
  | refl code p =>
    rw [hr] at he
    have : a = [] := List.append_left_eq_self.1 he
    subst this
    exact .refl _ _
  | ws c code p ts code' p' hws hs' ih =>
    cases a with
    | nil =>
      exfalso
      have := hs'.length_le
      have he := congrArg List.length he
      rw [← hr] at this
      simp at he this
      omega
    | cons e a =>
      simp only [List.cons_append, List.cons.injEq] at he
      obtain ⟨rfl, rfl⟩ := he
      exact .ws _ _ _ _ _ _ hws (ih hs rfl hr)
  | tok lex rest ty p ts code' p' hl hs' ih =>
    have hle := hs'.length_le
    have hcase : ∃ u, a = lex ++ u ∧ rest = u ++ (g' ++ [d] ++ b) := by
      rcases List.append_eq_append_iff.1 he.symm with ⟨u, h1, h2⟩ | ⟨u, h1, h2⟩
      · exact ⟨u, h1, h2⟩
      · cases u with
        | nil => exact ⟨[], by simpa using h1.symm, by simpa using h2.symm⟩
        | cons e u =>
          exfalso
          have := congrArg List.length h2
          rw [← hr] at hle
          simp at this hle
          omega
    obtain ⟨u, rfl, rfl⟩ := hcase
    rw [List.append_assoc]
    refine .tok _ _ _ _ _ _ _ ?_ (ih (fun t ht => hs t (List.mem_cons_of_mem _ ht)) rfl hr)
    have hl' : Lexeme lex ((u ++ g') ++ d :: b) ty := by simpa using hl
    have := hl'.dots (y := y) hd (hs _ List.mem_cons_self)
    simpa using this

end Lol
