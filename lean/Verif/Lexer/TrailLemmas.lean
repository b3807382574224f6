import Verif.Lexer.ComposeLemmas
import Verif.Lexer.TrailSpec

/-! # Helper lemmas: a newline after the end of a source -/

namespace Lol

theorem getLast_append_ne {a b : Str} (h : b ≠ []) : (a ++ b).getLast? = b.getLast? := by
  rw [List.getLast?_append]
  cases hb : b.getLast? with
  | none => exact absurd (List.getLast?_eq_none_iff.1 hb) h
  | some c => rfl

/-- The last character of a number. -/
theorem NumberLexeme.last {lex rest u : Str} {n : NumberToken} {c : Char} (h : NumberLexeme lex rest n)
    (he : lex = u ++ [c]) : IsDigit c ∨ c = '.' := by
  have hl : lex.getLast? = some c := by rw [he]; simp
  cases h with
  | int sgn ds d rest h1 h2 h3 =>
    rw [getLast_append_ne h2] at hl
    exact .inl (h3 c (List.mem_of_getLast? hl))
  | float sgn ds es d rest x h1 h2 h3 h4 =>
    rw [getLast_append_ne (by simp)] at hl
    rcases List.mem_cons.1 (List.mem_of_getLast? hl) with rfl | hm
    · exact .inr rfl
    · exact .inl (h4 c hm)

theorem EndsNoNumber.of_append {a b : Str} (h : EndsNoNumber (a ++ b)) : EndsNoNumber b := by
  intro u c he
  exact h (a ++ u) c (by rw [he]; simp)

/-- A lexeme that is not an open string is one also when a new line follows. -/
theorem Lexeme.trail {lex rest : Str} {ty : TokenType} (h : Lexeme lex rest ty) (hn : EndsNoNumber (lex ++ rest))
    (hs : (∀ s, ty = .value (.string s) → utf8Len lex = utf8Len s + 2) ∨ rest ≠ []) (b : Str) :
    Lexeme lex (rest ++ '\n' :: b) ty := by
  cases h with
  | comma => exact .comma _
  | bang => exact .bang _
  | btw body rest h1 h2 =>
    refine .btw body _ h1 (.inr ?_)
    rcases h2 with rfl | ⟨r, rfl⟩
    · exact ⟨_, rfl⟩
    · exact ⟨_, rfl⟩
  | obtw body rest h1 =>
    refine .obtw body _ ?_
    intro u v huv
    apply Classical.byContradiction
    intro hlt
    have hlt : u.length < body.length := by omega
    have h4 : (u ++ chars!"TLDR") <+: body ++ chars!"TLDR" := by
      have p1 : (u ++ chars!"TLDR") <+: (body ++ chars!"TLDR") ++ (rest ++ '\n' :: b) :=
        ⟨v, by rw [List.append_assoc, ← huv, List.append_assoc]⟩
      exact List.prefix_of_prefix_length_le p1 (List.prefix_append _ _) (by simp; omega)
    obtain ⟨w, hw⟩ := h4
    have := h1 u (w ++ rest) (by
      rw [← List.append_assoc, ← hw]; simp)
    omega
  | slot => exact .slot _
  | ellipsis => exact .ellipsis _
  | win => exact .win _
  | fail => exact .fail _
  | noob => exact .noob _
  | keyword k rest h1 h2 h3 h4 h5 h6 =>
    refine .keyword k _ ?_ h2 h3 h4 h5 h6
    intro j hj hp
    rw [← List.append_assoc] at hp
    exact h1 j hj (prefix_of_line j.spelling_line hp)
  | number lex rest n h1 =>
    cases rest with
    | nil => cases h1
    | cons d r => exact .number _ _ _ h1.rest_head
  | stringClosed body after pay c rest h1 h2 h3 h4 =>
    refine .stringClosed body (after ++ '\n' :: b) pay c _ h1 ?_ h3 h4
    have := congrArg (· ++ '\n' :: b) h2
    simpa using this
  | stringOpen body h1 =>
    have := (hs.resolve_right (by simp)) body rfl
    rw [utf8Len_cons] at this
    have h2 : ('"').utf8Size = 1 := rfl
    omega
  | identifier name rest h1 h2 h3 h4 =>
    refine .identifier _ _ h1 h2 ?_ ?_
    · intro c r he
      cases rest with
      | nil => cases he; decide
      | cons d r' =>
        cases he
        exact h3 _ _ rfl
    · intro k hp
      rw [← List.append_assoc] at hp
      exact h4 k (prefix_of_line k.spelling_line hp)
  | symbol c rest h1 h2 h3 h4 h5 h6 h7 h8 h9 =>
    refine .symbol c _ h1 h2 h3 h4 h5 h6 ?_ ?_ ?_
    · intro hp
      exact h7 (prefix_of_line (x := c :: rest) (by decide) hp)
    · intro hp
      exact h8 (prefix_of_line (x := c :: rest) (by decide) hp)
    · intro lex x n hx hl
      have hp : lex <+: c :: rest := prefix_of_line (x := c :: rest) (b := b) hl.no_newline ⟨x, hx.symm⟩
      obtain ⟨w, hw⟩ := hp
      have hx' : x = w ++ '\n' :: b := by
        have : lex ++ x = lex ++ (w ++ '\n' :: b) := by
          rw [← hx, ← List.append_assoc, hw]; rfl
        exact List.append_cancel_left this
      subst hx'
      cases w with
      | nil =>
        rw [List.append_nil] at hw
        rcases List.eq_nil_or_concat lex with he | ⟨u, d, he⟩
        · rw [he] at hw; cases hw
        · rw [List.concat_eq_append] at he
          have h10 := hl.last he
          have h11 := hn u d (by rw [← he, hw]; rfl)
          rcases h10 with h10 | h10
          · exact h11.1 h10
          · exact h11.2 h10
      | cons d w => exact h9 lex (d :: w) n hw.symm hl.rest_head

theorem Scan.trail {code rest : Str} {p q : Position} {ts : List Token} (h : Scan code p ts rest q)
    (hn : EndsNoNumber code) (hs : StringsClosed ts ∨ rest ≠ []) (b : Str) :
    Scan (code ++ '\n' :: b) p ts (rest ++ '\n' :: b) q := by
  induction h with
  | refl => exact .refl _ _
  | ws c code p ts code' p' hc h ih => exact .ws _ _ _ _ _ _ hc (ih (hn.of_append (a := [c])) hs)
  | tok lex rest ty p ts code' p' hl h ih =>
    rw [List.append_assoc]
    have h1 : StringsClosed ts ∨ code' ≠ [] := hs.imp_left fun hs t ht => hs t (by simp [ht])
    refine .tok _ _ _ _ _ _ _ (hl.trail hn ?_ b) (ih hn.of_append h1)
    rcases hs with hs | hs
    · refine .inl fun s h1 => ?_
      have := hs _ List.mem_cons_self s h1
      simp only [Position.afterLexeme] at this
      omega
    · refine .inr ?_
      rintro rfl
      obtain ⟨pre, hpre, -⟩ := scan_prefix h
      exact hs (List.append_eq_nil_iff.1 hpre.symm).2

theorem Unclosed.trail {code : Str} (h : Unclosed code) (b : Str) (hb : ∀ c ∈ b, c ≠ 'T' ∧ c ≠ 'L' ∧ c ≠ 'D' ∧ c ≠ 'R') :
    Unclosed (code ++ b) := by
  refine ⟨h.1.trans (List.prefix_append _ _), ?_⟩
  intro u v he
  rcases List.append_eq_append_iff.1 he with ⟨x, h1, h2⟩ | ⟨x, h1, h2⟩
  · -- the end of `code` is in front of `TLDR`
    have := hb 'T' (by rw [h2]; simp)
    exact this.1 rfl
  · rcases List.append_eq_append_iff.1 h2 with ⟨y, h3, h4⟩ | ⟨y, h3, h4⟩
    · exact h.2 u y (by rw [h1, h3])
    · cases y with
      | nil =>
        rw [List.append_nil] at h3
        exact h.2 u [] (by rw [h1, ← h3]; rfl)
      | cons c y =>
        have hc : c ∈ chars!"TLDR" := by rw [h3]; simp
        have := hb c (by rw [h4]; simp)
        simp only [List.mem_cons, List.not_mem_nil, or_false] at hc
        rcases hc with rfl | rfl | rfl | rfl <;> simp at this

theorem Stuck.trail {code : Str} (h : Stuck code) (b : Str) : Stuck (code ++ b) := by
  cases h with
  | nonAscii c rest h => exact .nonAscii c _ h
  | string body after h1 h2 =>
    have e : '"' :: (body ++ '"' :: after) ++ b = '"' :: (body ++ '"' :: (after ++ b)) := by simp
    rw [e]
    refine .string body _ h1 ?_
    intro pay c rest he hl
    have hlen : pay.length ≤ body.length := by rw [← hl]; exact utf8Len_ge_length pay
    have hp : pay ++ [c] <+: body ++ '"' :: after := by
      refine List.prefix_of_prefix_length_le (l₃ := (body ++ '"' :: after) ++ b) ⟨rest, ?_⟩
        (List.prefix_append _ _) (by simp; omega)
      simpa using he.symm
    obtain ⟨r, hr⟩ := hp
    exact h2 pay c r (by rw [← hr]; simp) hl

theorem scan_ws_end {w : Str} (h : WsOnly w) (p : Position) : ∃ q, Scan w p [] [] q := by
  induction w generalizing p with
  | nil => exact ⟨p, .refl _ _⟩
  | cons c w ih =>
    obtain ⟨q, hq⟩ := ih (fun d hd => h d (by simp [hd])) (p.afterWs c)
    exact ⟨q, .ws _ _ _ _ _ _ (h c (by simp)) hq⟩

/-! ## The text in tokens -/

theorem Lexeme.text {lex rest : Str} {ty : TokenType} (h : Lexeme lex rest ty) : ty.text.Sublist lex := by
  cases h with
  | btw body rest => exact List.sublist_append_right _ _
  | obtw body rest => exact (List.sublist_append_right _ _).trans (List.sublist_append_left _ _)
  | stringClosed body after pay c rest => exact (List.sublist_append_left _ _).cons _
  | stringOpen body => exact (List.Sublist.refl _).cons _
  | identifier => exact .refl _
  | symbol => exact .refl _
  | _ => exact List.nil_sublist _

theorem scan_text {code rest : Str} {p q : Position} {ts : List Token} (h : Scan code p ts rest q) :
    ∃ pre, code = pre ++ rest ∧ (textOf ts).Sublist pre := by
  induction h with
  | refl => exact ⟨[], rfl, .refl _⟩
  | ws c code p ts code' p' hc h ih =>
    obtain ⟨pre, rfl, h1⟩ := ih
    exact ⟨c :: pre, rfl, h1.cons _⟩
  | tok lex rest ty p ts code' p' hl h ih =>
    obtain ⟨pre, rfl, h1⟩ := ih
    exact ⟨lex ++ pre, by simp, by
      show (ty.text ++ textOf ts).Sublist _
      exact hl.text.append h1⟩

end Lol
