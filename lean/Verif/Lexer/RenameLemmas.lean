import Verif.Lexer.RenameSpec
import Verif.Lexer.LayoutLemmas

/-! # Helper lemmas: other names and strings in a source text -/

namespace Lol

/-- A place where the texts begin to differ: both go on with a name or both with a string. -/
def AltersAt (d c : Char) : Prop := (IsIdent d ∧ IsLower c) ∨ (d = '"' ∧ c = '"')

/-- `new` is `old`, or differs from it only from the start of a name or string on. -/
inductive Altered : Str → Str → Prop
  | refl (s) : Altered s s
  | at (w x y : Str) (d c : Char) : AltersAt d c → Altered (w ++ d :: x) (w ++ c :: y)

theorem Altered.prepend (a : Str) {x y : Str} (h : Altered x y) : Altered (a ++ x) (a ++ y) := by
  cases h with
  | refl => exact .refl _
  | «at» w x y d c hg =>
    have := Altered.at (a ++ w) x y d c hg
    simpa using this

theorem Keyword.no_lower (k : Keyword) : ∀ c ∈ k.spelling, ¬ IsLower c ∧ c ≠ '"' := by
  have : ∀ k ∈ Keyword.all, ∀ c ∈ k.spelling, ¬ IsLower c ∧ c ≠ '"' := by decide +kernel
  exact this k k.mem_all

theorem AltersAt.stops {d c : Char} (h : AltersAt d c) : IsLower c ∨ c = '"' := by
  rcases h with h | h
  · exact .inl h.2
  · exact .inr h.2

/-- What contains no lower case letter and no quote does not reach the difference. -/
theorem prefix_before {s w y : Str} {c : Char} (hs : ∀ e ∈ s, ¬ IsLower e ∧ e ≠ '"') (hc : IsLower c ∨ c = '"')
    (h : s <+: w ++ c :: y) : s <+: w := by
  obtain ⟨r, hr⟩ := h
  rcases List.append_eq_append_iff.1 hr with ⟨u, h1, h2⟩ | ⟨u, h1, h2⟩
  · exact ⟨u, h1.symm⟩
  · cases u with
    | nil => exact ⟨[], by simpa using h1⟩
    | cons e u =>
      simp only [List.cons_append, List.cons.injEq] at h2
      obtain ⟨rfl, -⟩ := h2
      have := hs c (by rw [h1]; simp)
      rcases hc with hc | hc
      · exact absurd hc this.1
      · exact absurd hc this.2

theorem Altered.prefix_old {s a x y : Str} (h : Altered x y) (hs : ∀ e ∈ s, ¬ IsLower e ∧ e ≠ '"')
    (hp : s <+: a ++ y) : s <+: a ++ x := by
  cases h with
  | refl => exact hp
  | «at» w x y d c hg =>
    rw [← List.append_assoc] at hp
    have := prefix_before hs hg.stops hp
    rw [← List.append_assoc]
    exact this.trans (List.prefix_append _ _)

theorem Altered.head {x y : Str} (h : Altered x y) {c : Char} {r : Str} (hy : y = c :: r) :
    ∃ d r', x = d :: r' ∧ (d = c ∨ AltersAt d c) := by
  cases h with
  | refl => exact ⟨_, _, hy, .inl rfl⟩
  | «at» w x y d c' hg =>
    cases w with
    | cons e w =>
      simp at hy
      exact ⟨e, w ++ d :: x, rfl, .inl hy.1⟩
    | nil =>
      simp at hy
      exact ⟨d, x, rfl, .inr (hy.1 ▸ hg)⟩

theorem Altered.nil {y : Str} (h : Altered [] y) : y = [] := by
  generalize hx : ([] : Str) = x at h
  cases h with
  | refl => rfl
  | «at» w => simp at hx

theorem Altered.ne_nil {x y : Str} (h : Altered x y) (hx : x ≠ []) : y ≠ [] := by
  cases h with
  | refl => exact hx
  | «at» => simp

theorem IsLower.ident {c : Char} (h : IsLower c) : IsIdent c := by
  rcases h with h | h
  · exact .inl h
  · exact .inr (.inl h)

theorem IsIdent.not_number {c : Char} (h : IsIdent c) : ¬ IsDigit c ∧ c ≠ '.' := by
  constructor
  · intro hd
    unfold IsDigit at hd
    unfold IsIdent at h
    rcases h with rfl | h | h
    · revert hd; decide
    · exact absurd (Nat.le_trans (show 'a'.toNat ≤ c.toNat from h.1) (show c.toNat ≤ '9'.toNat from hd.2)) (by decide)
    · exact absurd (Nat.le_trans (show 'A'.toNat ≤ c.toNat from h.1) (show c.toNat ≤ '9'.toNat from hd.2)) (by decide)
  · rintro rfl
    revert h; decide

theorem AltersAt.not_number {d c : Char} (h : AltersAt d c) : (¬ IsDigit d ∧ d ≠ '.') ∧ ¬ IsDigit c ∧ c ≠ '.' := by
  rcases h with ⟨h1, h2⟩ | ⟨rfl, rfl⟩
  · exact ⟨h1.not_number, h2.ident.not_number⟩
  · decide

/-- The characters of a number. -/
theorem NumberLexeme.chars {lex r : Str} {n : NumberToken} (h : NumberLexeme lex r n) :
    ∀ e ∈ lex, ¬ IsLower e ∧ e ≠ '"' := by
  have hd : ∀ e, IsDigit e → ¬ IsLower e ∧ e ≠ '"' := by
    intro e he
    refine ⟨fun hl => hl.ident.not_number.1 he, ?_⟩
    rintro rfl
    revert he; decide
  have hs : ∀ sgn, IsSign sgn → ∀ e ∈ sgn, ¬ IsLower e ∧ e ≠ '"' := by
    intro sgn hs e he
    rcases hs with rfl | rfl | rfl
    · cases he
    · rcases List.mem_singleton.1 he with rfl; decide
    · rcases List.mem_singleton.1 he with rfl; decide
  intro e he
  cases h with
  | int sgn ds c rest h1 h2 h3 =>
    rcases List.mem_append.1 he with he | he
    · exact hs _ h1 e he
    · exact hd e (h3 e he)
  | float sgn ds es c rest x h1 h2 h3 h4 =>
    rcases List.mem_append.1 he with he | he
    · rcases List.mem_append.1 he with he | he
      · exact hs _ h1 e he
      · exact hd e (h3 e he)
    · rcases List.mem_cons.1 he with rfl | he
      · decide
      · exact hd e (h4 e he)

theorem NumberLexeme.change {lex r : Str} {c d : Char} {n : NumberToken} (h : NumberLexeme lex (c :: r) n) (r' : Str)
    (hd : d = c ∨ (¬ IsDigit d ∧ d ≠ '.')) : NumberLexeme lex (d :: r') n := by
  cases h with
  | int sgn ds c rest g1 g2 g3 g4 g5 g6 =>
    rcases hd with rfl | hd
    · exact .int sgn ds _ _ g1 g2 g3 g4 g5 g6
    · exact .int sgn ds _ _ g1 g2 g3 g4 hd.1 hd.2
  | float sgn ds es c rest x g1 g2 g3 g4 g5 g6 =>
    rcases hd with rfl | hd
    · exact .float sgn ds es _ _ x g1 g2 g3 g4 g5 g6
    · exact .float sgn ds es _ _ x g1 g2 g3 g4 hd.1 g6

/-- A number in the new text was one in the old. -/
theorem Altered.number {a x y lex r : Str} {n : NumberToken} (h : Altered x y) (he : a ++ y = lex ++ r)
    (hn : NumberLexeme lex r n) : ∃ r', a ++ x = lex ++ r' ∧ NumberLexeme lex r' n := by
  cases h with
  | refl => exact ⟨r, he, hn⟩
  | «at» w x y d c hg =>
    obtain ⟨u, hu⟩ := prefix_before (w := a ++ w) (y := y) hn.chars hg.stops ⟨r, by rw [← he]; simp⟩
    have hr : r = u ++ c :: y := by
      have : lex ++ r = lex ++ (u ++ c :: y) := by
        rw [← he, ← List.append_assoc lex, hu]; simp
      exact List.append_cancel_left this
    refine ⟨u ++ d :: x, by rw [← List.append_assoc, ← hu]; simp, ?_⟩
    subst hr
    cases u with
    | nil => exact hn.change _ (.inr hg.not_number.1)
    | cons e u => exact hn.change _ (.inl rfl)

/-- A lexeme stays one when names and strings after it are changed. -/
theorem Lexeme.altered {lex rest rest' : Str} {ty : TokenType} (h : Lexeme lex rest ty)
    (hm : ∀ s, ty = .value (.string s) → ∀ c ∈ s, IsAscii c) (hw : Altered rest rest') : Lexeme lex rest' ty := by
  cases h with
  | comma => exact .comma _
  | bang => exact .bang _
  | btw body rest h1 h2 =>
    refine .btw body _ h1 ?_
    rcases h2 with rfl | ⟨r, rfl⟩
    · exact .inl hw.nil
    · obtain ⟨c, r', rfl⟩ := List.exists_cons_of_ne_nil (hw.ne_nil (by simp))
      obtain ⟨d, r1, h3, h4⟩ := hw.head rfl
      cases h3
      rcases h4 with rfl | h4 | ⟨h4, -⟩
      · exact .inr ⟨_, rfl⟩
      · exact absurd h4.1 (by decide)
      · cases h4
  | obtw body rest h1 =>
    refine .obtw body _ ?_
    intro u v huv
    apply Classical.byContradiction
    intro hlt
    have hlt : u.length < body.length := by omega
    have h4 : (u ++ chars!"TLDR") <+: body ++ chars!"TLDR" := by
      have p1 : (u ++ chars!"TLDR") <+: (body ++ chars!"TLDR") ++ rest' :=
        ⟨v, by rw [List.append_assoc, ← huv, List.append_assoc]⟩
      exact List.prefix_of_prefix_length_le p1 (List.prefix_append _ _) (by simp; omega)
    obtain ⟨w, hw⟩ := h4
    have := h1 u (w ++ rest) (by
      rw [← List.append_assoc, ← hw]; simp)
    omega
  | slot => exact .slot _
  | ellipsis => exact .ellipsis _
  | win => exact .win _
  | fail => exact .fail _
  | noob => exact .noob _
  | keyword k rest h1 h2 h3 h4 h5 h6 =>
    exact .keyword k _ (fun j hj hp => h1 j hj (hw.prefix_old j.no_lower hp)) h2 h3 h4 h5 h6
  | number lex rest n h1 =>
    obtain ⟨c, r, hr⟩ := List.exists_cons_of_ne_nil (hw.ne_nil (by cases h1 <;> simp))
    obtain ⟨d, r', h2, h3⟩ := hw.head hr
    subst hr h2
    refine .number _ _ _ (h1.change _ ?_)
    rcases h3 with rfl | h3
    · exact .inl rfl
    · exact .inr h3.not_number.2
  | stringClosed body after pay c rest h1 h2 h3 h4 =>
    have m1 := hm pay rfl
    have hl : pay.length = body.length := by rw [← h3, utf8Len_ascii m1]
    have := (List.cons.inj h2).2
    obtain ⟨rfl, h5⟩ := List.append_inj this (by omega)
    cases h5
    exact .stringClosed body rest' body '"' rest' h1 rfl h3 h4
  | stringOpen body h1 =>
    rw [hw.nil]
    exact .stringOpen body h1
  | identifier name rest h1 h2 h3 h4 =>
    refine .identifier _ _ h1 h2 ?_ fun k hp => h4 k (hw.prefix_old k.no_lower hp)
    intro c r hr
    obtain ⟨d, r', h5, h6⟩ := hw.head hr
    have h7 := h3 d r' h5
    rcases h6 with rfl | h6 | ⟨-, rfl⟩
    · exact h7
    · exact absurd h6.1 h7
    · decide
  | symbol c rest h1 h2 h3 h4 h5 h6 h7 h8 h9 =>
    refine .symbol c _ h1 h2 h3 h4 h5 h6 ?_ ?_ ?_
    · exact fun hp => h7 (hw.prefix_old (a := [c]) (by decide) hp)
    · exact fun hp => h8 (hw.prefix_old (a := [c]) (by decide) hp)
    · intro lex x n hx hn
      obtain ⟨r', h10, h11⟩ := hw.number (a := [c]) hx hn
      exact h9 _ _ _ h10 h11

theorem Lexeme.ident_inv {lex rest n : Str} (h : Lexeme lex rest (.identifier n)) :
    lex = n ∧ (∃ d r, n = d :: r ∧ IsIdent d) ∧ ∀ c r, rest = c :: r → ¬ IsIdent c := by
  cases h with
  | identifier name rest h1 h2 h3 h4 =>
    obtain ⟨d, r, rfl⟩ := List.exists_cons_of_ne_nil h1
    exact ⟨rfl, ⟨d, r, rfl, h2 d (by simp)⟩, h3⟩

theorem Lexeme.string_inv {lex rest s : Str} (h : Lexeme lex rest (.value (.string s))) : ∃ r, lex = '"' :: r := by
  cases h with
  | stringClosed => exact ⟨_, rfl⟩
  | stringOpen => exact ⟨_, rfl⟩

theorem Lexed.altered {ρ : TokenType → TokenType} (hρ : Renaming ρ) {ps : List Piece} {tail : Str}
    (h : Lexed ps tail) : Altered (layout ps tail) (layout (ps.map (Piece.rename ρ)) tail) := by
  induction ps with
  | nil => exact .refl _
  | cons p ps ih =>
    obtain ⟨h1, h2, h3⟩ := h
    obtain ⟨g, lex, ty⟩ := p
    have h2 : Lexeme lex (layout ps tail) ty := h2
    simp only [List.map_cons, layout, Piece.rename]
    by_cases hty : ρ ty = ty
    · rw [if_pos hty]
      have := (ih h3).prepend (g ++ lex)
      simpa using this
    · rw [if_neg hty]
      rcases hρ ty with h | ⟨n, n', rfl, h5, ⟨c, r, rfl, h6⟩, -⟩ | ⟨s, s', rfl, h5, -⟩
      · exact absurd h hty
      · rw [h5]
        obtain ⟨rfl, ⟨d, r', rfl, h7⟩, -⟩ := h2.ident_inv
        exact .at g _ _ d c (.inl ⟨h7, h6⟩)
      · rw [h5]
        obtain ⟨r, rfl⟩ := h2.string_inv
        exact .at g _ _ '"' '"' (.inr ⟨rfl, rfl⟩)

theorem Lexed.rename {ρ : TokenType → TokenType} (hρ : Renaming ρ) {ps : List Piece} {tail : Str}
    (h : Lexed ps tail) (hm : ∀ p ∈ ps, ∀ s, p.type = .value (.string s) → ∀ c ∈ s, IsAscii c) :
    Lexed (ps.map (Piece.rename ρ)) tail := by
  induction ps with
  | nil => exact h
  | cons p ps ih =>
    obtain ⟨h1, h2, h3⟩ := h
    refine ⟨h1, ?_, ih h3 fun p hp => hm p (by simp [hp])⟩
    have ha := h3.altered hρ
    obtain ⟨g, lex, ty⟩ := p
    have h2 : Lexeme lex (layout ps tail) ty := h2
    show Lexeme (if ρ ty = ty then lex else (ρ ty).written) _ (ρ ty)
    by_cases hty : ρ ty = ty
    · rw [if_pos hty, hty]
      exact h2.altered (hm ⟨g, lex, ty⟩ (by simp)) ha
    · rw [if_neg hty]
      rcases hρ ty with h | ⟨n, n', rfl, h5, ⟨c, r, rfl, h6⟩, h7⟩ | ⟨s, s', rfl, h5, h6, h7⟩
      · exact absurd h hty
      · rw [h5]
        obtain ⟨rfl, -, h8⟩ := h2.ident_inv
        refine .identifier (c :: r) _ (by simp) h7 ?_ ?_
        · intro e r' hr
          obtain ⟨d, r'', h9, h10⟩ := ha.head hr
          have h11 := h8 d r'' h9
          rcases h10 with rfl | h10 | ⟨-, rfl⟩
          · exact h11
          · exact absurd h10.1 h11
          · decide
        · intro k hk
          have := prefix_before (w := []) k.no_lower (.inl h6) hk
          have h12 := k.spelling_head
          obtain ⟨e, r, h12, -⟩ := h12
          rw [h12] at this
          simp at this
      · rw [h5]
        exact .stringClosed s' _ s' '"' _ h6 rfl (utf8Len_ascii h7) (by decide)

end Lol
