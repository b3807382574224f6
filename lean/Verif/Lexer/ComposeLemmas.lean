import Verif.Lexer.ScanLemmas

/-! # Helper lemmas: newlines outside tokens, texts in front of a line -/

namespace Lol

theorem lineColumn_append (ts : List Token) (a b : Str) (o l c : Int) :
    lineColumn ts (a ++ b) o l c =
      lineColumn ts b (o + utf8Len a) (lineColumn ts a o l c).1 (lineColumn ts a o l c).2 := by
  induction a generalizing o l c with
  | nil => simp [lineColumn]
  | cons ch a ih =>
    simp only [List.cons_append, lineColumn]
    split
    · rename_i h
      rw [ih, utf8Len_cons, h.1]
      congr 1
      have : ('\n').utf8Size = 1 := rfl
      rw [this]; omega
    · rw [ih, utf8Len_cons]
      congr 1; omega

/-- Text inside a token. -/
theorem lineColumn_inside {ts : List Token} {t : Token} (ht : t ∈ ts) (s : Str) (o l c : Int)
    (h1 : t.range.start.bytes ≤ o) (h2 : o + utf8Len s ≤ t.range.stop.bytes) :
    lineColumn ts s o l c = (l, c + utf8Len s) := by
  induction s generalizing o c with
  | nil => simp [lineColumn]
  | cons ch s ih =>
    have hp := utf8Size_pos ch
    simp only [utf8Len_cons] at h2
    have hn : ¬ (ch = '\n' ∧ Outside ts o) := fun h => h.2 t ht ⟨h1, by omega⟩
    rw [lineColumn, if_neg hn, ih _ _ (by omega) (by omega), utf8Len_cons]
    congr 1; omega

theorem scan_lineColumn {code rest : Str} {p q : Position} {ts : List Token} (h : Scan code p ts rest q)
    (all : List Token) (hsub : ∀ t ∈ ts, t ∈ all) (hrest : ∀ t ∈ all, t ∉ ts →
      t.range.stop.bytes ≤ p.bytes ∨ q.bytes ≤ t.range.start.bytes) :
    ∃ mid, code = mid ++ rest ∧ lineColumn all mid p.bytes p.line p.column = (q.line, q.column) ∧
      p.bytes + utf8Len mid = q.bytes := by
  induction h with
  | refl => exact ⟨[], rfl, rfl, by simp⟩
  | ws c code p ts code' p' hc hs ih =>
    have hb : (p.afterWs c).bytes = p.bytes + 1 := by unfold Position.afterWs; split <;> rfl
    have hle : (p.afterWs c).bytes ≤ p'.bytes := by
      rcases scan_le hs with h | h
      · rw [h]; exact Int.le_refl _
      · have := h.1; omega
    obtain ⟨mid, h1, h2, h3⟩ := ih hsub (fun t ht hn => by
      rcases hrest t ht hn with h | h
      · exact .inl (by omega)
      · exact .inr h)
    refine ⟨c :: mid, by rw [h1]; rfl, ?_, by rw [utf8Len_cons, hc.size]; omega⟩
    rw [lineColumn]
    by_cases hn : c = '\n'
    · subst hn
      have hout : Outside all p.bytes := by
        intro t ht hin
        by_cases hts : t ∈ ts
        · rcases ((scan_ordered hs).1 t hts).1 with h | h
          · rw [← h] at hin; omega
          · have := h.1; omega
        · rcases hrest t ht hts with h | h
          · omega
          · omega
      rw [if_pos ⟨rfl, hout⟩, ← h2, hb]
      rfl
    · rw [if_neg (fun h => hn h.1), ← h2, hb, hc.size]
      simp [Position.afterWs, hn]
  | tok lex rest ty p ts code' p' hl hs ih =>
    have hpos := utf8Len_pos hl.ne_nil
    have hb : (p.afterLexeme lex).bytes = p.bytes + utf8Len lex := rfl
    have hle : (p.afterLexeme lex).bytes ≤ p'.bytes := by
      rcases scan_le hs with h | h
      · rw [h]; exact Int.le_refl _
      · have := h.1; omega
    obtain ⟨mid, h1, h2, h3⟩ := ih (fun t ht => hsub t (List.mem_cons_of_mem _ ht)) (fun t ht hn => by
      by_cases he : t = { tokenType := ty, range := { start := p, stop := p.afterLexeme lex } }
      · subst he
        exact .inl (Int.le_refl _)
      · rcases hrest t ht (by simp [he, hn]) with h | h
        · exact .inl (by omega)
        · exact .inr h)
    refine ⟨lex ++ mid, by rw [h1, List.append_assoc], ?_, by rw [utf8Len_append]; omega⟩
    rw [lineColumn_append, lineColumn_inside (hsub _ List.mem_cons_self) lex p.bytes p.line p.column
      (Int.le_refl _) (by simp [Position.afterLexeme]), ← h2]
    rfl

/-! ## Texts in front of a line -/

theorem prefix_of_line {s x b : Str} (hs : '\n' ∉ s) (h : s <+: x ++ '\n' :: b) : s <+: x := by
  obtain ⟨r, hr⟩ := h
  rcases List.append_eq_append_iff.1 hr with ⟨u, h1, h2⟩ | ⟨u, h1, h2⟩
  · exact ⟨u, h1.symm⟩
  · cases u with
    | nil => simp at h1; exact ⟨[], by simp [h1]⟩
    | cons c u =>
      simp at h2
      exact absurd (by rw [h1, ← h2.1]; simp) hs

theorem not_prefix_of_line {s x b : Str} (hs : '\n' ∉ s) (h : ¬ s <+: x ++ ['\n']) :
    ¬ s <+: x ++ '\n' :: b := by
  intro hp
  obtain ⟨r, rfl⟩ := prefix_of_line hs hp
  exact h ⟨r ++ ['\n'], by simp⟩

theorem Keyword.spelling_line (k : Keyword) : '\n' ∉ k.spelling := by
  cases k <;> decide

theorem NumberLexeme.no_newline {lex rest : Str} {n : NumberToken} (h : NumberLexeme lex rest n) :
    '\n' ∉ lex := by
  have hd : ∀ ds : Str, (∀ d ∈ ds, IsDigit d) → '\n' ∉ ds := fun ds h hm => absurd (h _ hm) (by decide)
  have hs : ∀ s : Str, IsSign s → '\n' ∉ s := by
    rintro s (rfl | rfl | rfl) <;> decide
  cases h with
  | int sgn ds c rest h1 h2 h3 => simp [hs _ h1, hd _ h3]
  | float sgn ds es c rest x h1 h2 h3 h4 => simp [hs _ h1, hd _ h3, hd _ h4]

theorem NumberLexeme.rest_head {lex : Str} {c : Char} {r r' : Str} {n : NumberToken}
    (h : NumberLexeme lex (c :: r) n) : NumberLexeme lex (c :: r') n := by
  generalize he : c :: r = rest at h
  cases h with
  | int sgn ds c' rest h1 h2 h3 h4 h5 h6 => cases he; exact .int sgn ds c r' h1 h2 h3 h4 h5 h6
  | float sgn ds es c' rest x h1 h2 h3 h4 h5 h6 => cases he; exact .float sgn ds es c r' x h1 h2 h3 h4 h5 h6

/-- A lexeme followed by the rest of its line does not depend on the next lines. -/
theorem Lexeme.next_line {lex r b : Str} {ty : TokenType} (h : Lexeme lex (r ++ ['\n']) ty) :
    Lexeme lex (r ++ '\n' :: b) ty := by
  have hhead : ∀ (P : Char → Prop), (∀ c x, r ++ ['\n'] = c :: x → P c) →
      ∀ c x, r ++ '\n' :: b = c :: x → P c := by
    intro P hP c x he
    cases r with
    | nil =>
      simp at he
      exact he.1 ▸ hP '\n' [] rfl
    | cons d r =>
      simp at he
      exact he.1 ▸ hP d (r ++ ['\n']) rfl
  generalize he : r ++ ['\n'] = rest at h
  cases h with
  | comma => exact .comma _
  | bang => exact .bang _
  | btw body rest h1 h2 =>
    refine .btw body _ h1 (.inr ?_)
    rcases h2 with rfl | ⟨x, rfl⟩
    · simp at he
    · cases r with
      | nil => exact ⟨b, rfl⟩
      | cons d r =>
        simp at he
        exact ⟨r ++ '\n' :: b, by simp [he.1]⟩
  | obtw body rest h1 =>
    refine .obtw body _ ?_
    intro u v huv
    apply Classical.byContradiction
    intro hlt
    have hlt : u.length < body.length := by omega
    have h4 : (u ++ chars!"TLDR") <+: body ++ chars!"TLDR" := by
      have p1 : (u ++ chars!"TLDR") <+: (body ++ chars!"TLDR") ++ (r ++ '\n' :: b) :=
        ⟨v, by rw [List.append_assoc, ← huv, List.append_assoc]⟩
      exact List.prefix_of_prefix_length_le p1 (List.prefix_append _ _) (by simp; omega)
    obtain ⟨w, hw⟩ := h4
    have := h1 u (w ++ rest) (by
      rw [← List.append_assoc, ← hw]; simp)
    omega
  | slot => exact .slot _
  | ellipsis => exact .ellipsis _
  | win => exact .win _
  | fail => exact .fail _
  | noob => exact .noob _
  | keyword k rest h1 h2 h3 h4 h5 h6 =>
    subst he
    refine .keyword k _ ?_ h2 h3 h4 h5 h6
    intro j hj
    rw [← List.append_assoc]
    exact not_prefix_of_line j.spelling_line (by rw [List.append_assoc]; exact h1 j hj)
  | number lex rest n h1 =>
    subst he
    cases r with
    | nil => exact .number _ _ _ h1.rest_head
    | cons d r => exact .number _ _ _ h1.rest_head
  | stringClosed body after pay c rest h1 h2 h3 h4 =>
    subst he
    refine .stringClosed body (after ++ b) pay c _ h1 ?_ h3 h4
    have := congrArg (· ++ b) h2
    simpa using this
  | stringOpen body h1 => simp at he
  | identifier name rest h1 h2 h3 h4 =>
    subst he
    refine .identifier _ _ h1 h2 (hhead _ h3) ?_
    intro k
    rw [← List.append_assoc]
    exact not_prefix_of_line k.spelling_line (by rw [List.append_assoc]; exact h4 k)
  | symbol c rest h1 h2 h3 h4 h5 h6 h7 h8 h9 =>
    subst he
    refine .symbol c _ h1 h2 h3 h4 h5 h6 ?_ ?_ ?_
    · exact not_prefix_of_line (x := c :: r) (by decide) h7
    · exact not_prefix_of_line (x := c :: r) (by decide) h8
    · intro lex x n hx hn
      have hp : lex <+: c :: r := prefix_of_line (x := c :: r) (b := b) hn.no_newline ⟨x, hx.symm⟩
      obtain ⟨w, hw⟩ := hp
      have hx' : x = w ++ '\n' :: b := by
        have : lex ++ x = lex ++ (w ++ '\n' :: b) := by
          rw [← hx, ← List.append_assoc, hw]; rfl
        exact List.append_cancel_left this
      subst hx'
      refine h9 lex (w ++ ['\n']) n (by rw [← List.append_assoc, hw]; rfl) ?_
      cases w with
      | nil => exact hn.rest_head
      | cons d w => exact hn.rest_head

theorem Scan.of_nil {p q : Position} {ts : List Token} {rest : Str} (h : Scan [] p ts rest q) :
    ts = [] ∧ p = q := by
  generalize he : ([] : Str) = code at h
  cases h with
  | refl => exact ⟨rfl, rfl⟩
  | ws => cases he
  | tok lex rest ty p ts code' p' hl =>
    have := hl.ne_nil
    simp at he
    exact absurd he.1 this

/-- A text whose last token does not reach over its final newline is read in the same way when more lines follow. -/
theorem Scan.next_line {code : Str} {p q : Position} {ts : List Token} (h : Scan code p ts [] q) (a b : Str)
    (he : code = a ++ ['\n']) (hend : ∀ t ∈ ts, t.range.stop.bytes ≤ p.bytes + utf8Len a) :
    Scan (a ++ '\n' :: b) p ts b q := by
  generalize hn : ([] : Str) = fin at h
  induction h generalizing a with
  | refl => subst hn; simp at he
  | ws c code p ts code' p' hc hs ih =>
    cases a with
    | nil =>
      simp at he
      obtain ⟨rfl, rfl⟩ := he
      obtain ⟨rfl, rfl⟩ := hs.of_nil
      exact .ws _ _ _ _ _ _ hc (.refl _ _)
    | cons d a =>
      simp at he
      obtain ⟨rfl, rfl⟩ := he
      have hb : (p.afterWs c).bytes = p.bytes + 1 := by unfold Position.afterWs; split <;> rfl
      refine .ws _ _ _ _ _ _ hc (ih a rfl (fun t ht => ?_) hn)
      have := hend t ht
      rw [utf8Len_cons, hc.size] at this
      omega
  | tok lex rest ty p ts code' p' hl hs ih =>
    have hlen := hend _ List.mem_cons_self
    simp only [Position.afterLexeme] at hlen
    rcases List.append_eq_append_iff.1 he with ⟨u, h1, h2⟩ | ⟨u, h1, h2⟩
    · subst h1 h2
      have := Scan.tok lex (u ++ '\n' :: b) ty p ts b p' hl.next_line (ih u rfl (fun t ht => by
        have := hend t (List.mem_cons_of_mem _ ht)
        rw [utf8Len_append] at this
        show _ ≤ p.bytes + utf8Len lex + _
        omega) hn)
      rwa [List.append_assoc]
    · cases u with
      | nil =>
        simp at h1 h2
        subst h1
        have := Scan.tok lex ('\n' :: b) ty p ts b p' (Lexeme.next_line (r := []) (by simpa [h2] using hl)) (by
          have := ih [] (by simp [h2]) (fun t ht => by
            have := hend t (List.mem_cons_of_mem _ ht)
            show _ ≤ p.bytes + utf8Len lex + _
            simp
            omega) hn
          simpa using this)
        exact this
      | cons c u =>
        rw [h1, utf8Len_append, utf8Len_cons] at hlen
        have := utf8Size_pos c
        omega

end Lol
