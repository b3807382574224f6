import Verif.Lexer.CrlfSpec
import Verif.Lexer.RenameLemmas
import Verif.Lexer.ComposeLemmas

/-! # Helper lemmas: Windows line ends -/

namespace Lol

theorem crlf_append (a b : Str) : crlf (a ++ b) = crlf a ++ crlf b := by
  induction a with
  | nil => rfl
  | cons c a ih =>
    simp only [List.cons_append, crlf, ih]
    split <;> simp

theorem crlf_no {s : Str} (h : '\n' ∉ s) : crlf s = s := by
  induction s with
  | nil => rfl
  | cons c s ih =>
    simp only [List.mem_cons, not_or] at h
    rw [crlf, if_neg (Ne.symm h.1), ih h.2]

theorem crlf_length (s : Str) : s.length ≤ (crlf s).length := by
  induction s with
  | nil => simp
  | cons c s ih =>
    rw [crlf]
    split <;> simp <;> omega

theorem crlf_ne_nil {s : Str} (h : s ≠ []) : crlf s ≠ [] := by
  cases s with
  | nil => exact absurd rfl h
  | cons c s => rw [crlf]; split <;> simp

theorem crlf_ascii {s : Str} (h : ∀ c ∈ s, IsAscii c) : ∀ c ∈ crlf s, IsAscii c := by
  induction s with
  | nil => simp [crlf]
  | cons c s ih =>
    have ih := ih fun c hc => h c (by simp [hc])
    rw [crlf]
    split
    · intro d hd
      simp only [List.mem_cons] at hd
      rcases hd with rfl | rfl | hd
      · decide
      · decide
      · exact ih d hd
    · intro d hd
      rcases List.mem_cons.1 hd with rfl | hd
      · exact h _ (by simp)
      · exact ih d hd

theorem crlf_head {s r : Str} {c : Char} (h : crlf s = c :: r) :
    ∃ d r', s = d :: r' ∧ ((d = c ∧ c ≠ '\n' ∧ r = crlf r') ∨ (d = '\n' ∧ c = '\r')) := by
  cases s with
  | nil => cases h
  | cons d s =>
    rw [crlf] at h
    split at h
    · rename_i hd
      simp only [List.cons.injEq] at h
      exact ⟨d, s, rfl, .inr ⟨hd, h.1.symm⟩⟩
    · rename_i hd
      simp only [List.cons.injEq] at h
      exact ⟨d, s, rfl, .inl ⟨h.1, h.1 ▸ hd, h.2.symm⟩⟩

/-- A character that is not part of a line end comes from the old text. -/
theorem crlf_split {s u v : Str} {c : Char} (h : crlf s = u ++ c :: v) (h1 : c ≠ '\r') (h2 : c ≠ '\n') :
    ∃ u' v', s = u' ++ c :: v' ∧ u = crlf u' ∧ v = crlf v' := by
  induction s generalizing u with
  | nil => simp [crlf] at h
  | cons d s ih =>
    rw [crlf] at h
    split at h
    · rename_i hd
      match u, h with
      | [], h =>
        simp only [List.nil_append, List.cons.injEq] at h
        exact absurd h.1.symm h1
      | [_], h =>
        simp only [List.cons_append, List.nil_append, List.cons.injEq] at h
        exact absurd h.2.1.symm h2
      | _ :: _ :: u, h =>
        simp only [List.cons_append, List.cons.injEq] at h
        obtain ⟨u', v', h3, h4, h5⟩ := ih h.2.2
        exact ⟨d :: u', v', by rw [h3]; rfl, by rw [crlf, if_pos hd, ← h4, h.1, h.2.1], h5⟩
    · rename_i hd
      cases u with
      | nil =>
        simp only [List.nil_append, List.cons.injEq] at h
        exact ⟨[], s, by rw [h.1]; rfl, rfl, h.2.symm⟩
      | cons e u =>
        simp only [List.cons_append, List.cons.injEq] at h
        obtain ⟨u', v', h3, h4, h5⟩ := ih h.2
        exact ⟨d :: u', v', by rw [h3]; rfl, by rw [crlf, if_neg hd, ← h4, h.1], h5⟩

/-- What contains neither character of a line end was there before. -/
theorem crlf_prefix {s a x : Str} (hs : ∀ c ∈ s, c ≠ '\r' ∧ c ≠ '\n') (h : s <+: a ++ crlf x) : s <+: a ++ x := by
  induction a generalizing s with
  | cons d a ih =>
    cases s with
    | nil => exact List.nil_prefix
    | cons e s =>
      rw [List.cons_append, List.cons_prefix_cons] at h ⊢
      exact ⟨h.1, ih (fun c hc => hs c (by simp [hc])) h.2⟩
  | nil =>
    rw [List.nil_append] at h ⊢
    induction x generalizing s with
    | nil => exact h
    | cons d x ih =>
      cases s with
      | nil => exact List.nil_prefix
      | cons e s =>
        rw [crlf] at h
        split at h
        · rw [List.cons_prefix_cons] at h
          exact absurd h.1 (hs e (by simp)).1
        · rw [List.cons_prefix_cons] at h ⊢
          exact ⟨h.1, ih (fun c hc => hs c (by simp [hc])) h.2⟩

theorem Keyword.no_end (k : Keyword) : ∀ c ∈ k.spelling, c ≠ '\r' ∧ c ≠ '\n' := by
  have : ∀ k ∈ Keyword.all, ∀ c ∈ k.spelling, c ≠ '\r' ∧ c ≠ '\n' := by decide +kernel
  exact this k k.mem_all

theorem NumberLexeme.no_end {lex rest : Str} {n : NumberToken} (h : NumberLexeme lex rest n) :
    ∀ c ∈ lex, c ≠ '\r' ∧ c ≠ '\n' := by
  have hd : ∀ c, IsDigit c → c ≠ '\r' ∧ c ≠ '\n' := by
    intro c hc
    constructor <;> (rintro rfl; revert hc; decide)
  have hs : ∀ s : Str, IsSign s → ∀ c ∈ s, c ≠ '\r' ∧ c ≠ '\n' := by
    rintro s (rfl | rfl | rfl) <;> decide
  intro e he
  cases h with
  | int sgn ds c rest h1 h2 h3 =>
    rcases List.mem_append.1 he with he | he
    · exact hs _ h1 e he
    · exact hd e (h3 e he)
  | float sgn ds es c rest x h1 h2 h3 h4 =>
    rcases List.mem_append.1 he with he | he
    · rcases List.mem_append.1 he with he | he
      · exact hs _ h1 e he
      · exact hd e (h3 e he)
    · rcases List.mem_cons.1 he with rfl | he
      · decide
      · exact hd e (h4 e he)

theorem no_end {s : Str} (h : ∀ c ∈ s, c ≠ '\r' ∧ c ≠ '\n') : '\n' ∉ s := fun hm => (h _ hm).2 rfl

theorem NumberLexeme.crlf {lex rest : Str} {n : NumberToken} (h : NumberLexeme lex rest n) :
    NumberLexeme lex (Lol.crlf rest) n := by
  cases rest with
  | nil => cases h
  | cons c r =>
    rw [Lol.crlf]
    split
    · exact h.change _ (.inr (by decide))
    · exact h.change _ (.inl rfl)

theorem NumberLexeme.of_crlf {lex rest : Str} {n : NumberToken} (h : NumberLexeme lex (Lol.crlf rest) n) :
    NumberLexeme lex rest n := by
  cases rest with
  | nil => cases h
  | cons c r =>
    rw [Lol.crlf] at h
    split at h
    · rename_i hc
      exact h.change _ (.inr (by rw [hc]; decide))
    · exact h.change _ (.inl rfl)

/-- A number in the new text was one in the old. -/
theorem crlf_number {c : Char} {x lex r : Str} {n : NumberToken} (he : c :: crlf x = lex ++ r)
    (hn : NumberLexeme lex r n) : ∃ r', c :: x = lex ++ r' ∧ NumberLexeme lex r' n := by
  have hp : lex <+: [c] ++ x := crlf_prefix hn.no_end ⟨r, he.symm⟩
  obtain ⟨r', hr⟩ := hp
  have hc : c ≠ '\n' := by
    obtain ⟨d, s, hl, -⟩ := hn.head
    rw [hl] at he
    have : c = d := (List.cons.inj he).1
    exact this ▸ (hn.no_end d (by rw [hl]; simp)).2
  have h1 : crlf (c :: x) = crlf (lex ++ r') := by rw [hr]; rfl
  rw [crlf, if_neg hc, he, crlf_append, crlf_no (no_end hn.no_end)] at h1
  have h2 := List.append_cancel_left h1
  subst h2
  exact ⟨r', hr.symm, hn.of_crlf⟩

theorem QuotesEscaped.crlf {s : Str} (h : QuotesEscaped s) : QuotesEscaped (Lol.crlf s) := by
  intro u v he
  obtain ⟨u', v', h1, rfl, rfl⟩ := crlf_split he (by decide) (by decide)
  obtain ⟨w, rfl⟩ := h u' v' h1
  exact ⟨Lol.crlf w, by rw [crlf_append]; rfl⟩

theorem StringBody.crlf {s : Str} (h : StringBody s) : StringBody (Lol.crlf s) := by
  refine ⟨h.1.crlf, ?_⟩
  intro u he
  obtain ⟨u', v', h1, rfl, h2⟩ := crlf_split he (by decide) (by decide)
  cases v' with
  | nil => exact h.2 u' h1
  | cons c v => exact absurd h2.symm (crlf_ne_nil (by simp))

theorem crlf_tldr {s u v : Str} (h : crlf s = u ++ (chars!"TLDR" ++ v)) :
    ∃ u' v', s = u' ++ (chars!"TLDR" ++ v') ∧ u = crlf u' := by
  obtain ⟨u', w, h1, h2, h3⟩ := crlf_split (c := 'T') (v := chars!"LDR" ++ v) h (by decide) (by decide)
  have h4 : chars!"LDR" <+: [] ++ w := crlf_prefix (by decide) ⟨v, h3⟩
  obtain ⟨v', h5⟩ := h4
  exact ⟨u', v', by rw [h1, ← h5.trans (List.nil_append _)]; rfl, h2⟩

theorem crlf_cons {c : Char} (h : c ≠ '\n') (s : Str) : crlf (c :: s) = c :: crlf s := by
  rw [crlf, if_neg h]

/-- A lexeme in the text with Windows line ends. -/
theorem Lexeme.crlf {lex rest : Str} {ty : TokenType} (h : Lexeme lex rest ty) (ha : ∀ c ∈ lex, IsAscii c)
    (hb : ∀ s, ty ≠ .commentSingleLine s) : Lexeme (Lol.crlf lex) (Lol.crlf rest) (crlfType ty) := by
  cases h with
  | comma => exact .comma _
  | bang => exact .bang _
  | btw body rest h1 h2 => exact absurd rfl (hb body)
  | obtw body rest h1 =>
    rw [crlf_append, crlf_append]
    refine .obtw _ _ ?_
    intro u v huv
    have he : Lol.crlf (body ++ (chars!"TLDR" ++ rest)) = u ++ (chars!"TLDR" ++ v) := by
      rw [crlf_append, crlf_append]; exact huv
    obtain ⟨u', v', h2, rfl⟩ := crlf_tldr he
    have h3 := h1 u' v' h2
    obtain ⟨w, hw⟩ : body <+: u' :=
      List.prefix_of_prefix_length_le ⟨_, h2⟩ (List.prefix_append _ _) h3
    rw [← hw, crlf_append]
    simp
  | slot => exact .slot _
  | ellipsis => exact .ellipsis _
  | win => exact .win _
  | fail => exact .fail _
  | noob => exact .noob _
  | keyword k rest h1 h2 h3 h4 h5 h6 =>
    rw [crlf_no (no_end k.no_end)]
    exact .keyword k _ (fun j hj hp => h1 j hj (crlf_prefix j.no_end hp)) h2 h3 h4 h5 h6
  | number lex rest n h1 =>
    rw [crlf_no (no_end h1.no_end)]
    exact .number _ _ _ h1.crlf
  | stringClosed body after pay c rest h1 h2 h3 h4 =>
    have m1 : ∀ d ∈ pay, IsAscii d := fun d hd => ha d (by simp [hd])
    have hl : pay.length = body.length := by rw [← h3, utf8Len_ascii m1]
    have := (List.cons.inj h2).2
    obtain ⟨rfl, h5⟩ := List.append_inj this (by omega)
    cases h5
    have he : Lol.crlf ('"' :: (body ++ ['"'])) = '"' :: (Lol.crlf body ++ ['"']) := by
      rw [crlf_cons (by decide), crlf_append]; rfl
    rw [he]
    refine .stringClosed (Lol.crlf body) _ (Lol.crlf body) '"' _ h1.crlf rfl ?_ h4
    exact utf8Len_ascii (crlf_ascii m1)
  | stringOpen body h1 =>
    rw [crlf_cons (by decide)]
    exact .stringOpen _ h1.crlf
  | identifier name rest h1 h2 h3 h4 =>
    rw [crlf_no fun hm => absurd (h2 _ hm) (by decide)]
    refine .identifier _ _ h1 h2 ?_ fun k hp => h4 k (crlf_prefix k.no_end hp)
    intro c r hr
    obtain ⟨d, r', rfl, h5 | h5⟩ := crlf_head hr
    · exact h5.1 ▸ h3 d r' rfl
    · rw [h5.2]; decide
  | symbol c rest h1 h2 h3 h4 h5 h6 h7 h8 h9 =>
    have hc : c ≠ '\n' := fun hc => h2 (.inr (.inr hc))
    rw [crlf_cons hc]
    refine .symbol c _ h1 h2 h3 h4 h5 h6 (fun hp => h7 ?_) (fun hp => h8 ?_) ?_
    · exact crlf_prefix (a := [c]) (by decide) hp
    · exact crlf_prefix (a := [c]) (by decide) hp
    · intro lex r n he hn
      obtain ⟨r', h10, h11⟩ := crlf_number he hn
      exact h9 lex r' n h10 h11

theorem carriage_lexeme (rest : Str) : Lexeme ['\r'] rest (.symbol ['\r']) := by
  refine .symbol '\r' rest (by decide) (by decide) (by decide) (by decide) (by decide) (by decide)
    (not_prefix_head (by decide)) (not_prefix_head (by decide)) ?_
  intro lex r n he hn
  obtain ⟨c, s, hl, hh, _⟩ := hn.head
  rw [hl] at he
  simp at he
  rw [← he.1] at hh
  revert hh
  decide

theorem lineTypes_cons (t : Token) (ts : List Token) (l : Int) :
    lineTypes (t :: ts) l = if t.range.start.line = l then t.tokenType :: lineTypes ts l else lineTypes ts l := by
  unfold lineTypes
  rw [List.filter_cons]
  by_cases h : t.range.start.line = l <;> simp [h]

theorem scan_line_le {code rest : Str} {p q : Position} {ts : List Token} (h : Scan code p ts rest q) :
    p.line ≤ q.line ∧ ∀ t ∈ ts, p.line ≤ t.range.start.line ∧ t.range.start.line ≤ q.line := by
  induction h with
  | refl => simp
  | ws c code p ts code' p' hc hs ih =>
    have : p.line ≤ (p.afterWs c).line := by rw [afterWs_line]; omega
    exact ⟨by omega, fun t ht => ⟨by have := (ih.2 t ht).1; omega, (ih.2 t ht).2⟩⟩
  | tok lex rest ty p ts code' p' hl hs ih =>
    have : p.line = (p.afterLexeme lex).line := rfl
    refine ⟨by omega, fun t ht => ?_⟩
    rcases List.mem_cons.1 ht with rfl | ht
    · exact ⟨Int.le_refl _, by simp only; omega⟩
    · have := ih.2 t ht
      exact ⟨by omega, this.2⟩

theorem lineTypes_before {code rest : Str} {p q : Position} {ts : List Token} (h : Scan code p ts rest q) {l : Int}
    (hl : l < p.line) : lineTypes ts l = [] := by
  unfold lineTypes
  rw [List.map_eq_nil_iff, List.filter_eq_nil_iff]
  intro t ht
  have := ((scan_line_le h).2 t ht).1
  simp
  omega

theorem endLine_cons {ty : TokenType} (h : ∀ s, ty ≠ .commentSingleLine s) (tys : List TokenType) :
    endLine (ty :: tys) = ty :: endLine tys := by
  cases ty <;> first | (cases tys <;> rfl) | exact absurd rfl (h _)

theorem crlfType_comment {ty : TokenType} (h : ∀ s, ty ≠ .commentSingleLine s) (s : Str) :
    crlfType ty ≠ .commentSingleLine s := by
  cases ty with
  | commentSingleLine s => exact absurd rfl (h s)
  | value v => cases v <;> simp [crlfType]
  | _ => simp [crlfType]

/-- Scanning the text with Windows line ends, up to a place that is not at a newline. -/
theorem Scan.crlf {code rest : Str} {p q : Position} {ts : List Token} (h : Scan code p ts rest q)
    (ha : ∀ c ∈ code, IsAscii c) (hr : ∀ r, rest ≠ '\n' :: r) (p' : Position) (hp : p'.line = p.line) :
    ∃ ts' q', Scan (Lol.crlf code) p' ts' (Lol.crlf rest) q' ∧ q'.line = q.line ∧
      ∀ l, lineTypes ts' l = if p.line ≤ l ∧ l < q.line then endLine ((lineTypes ts l).map crlfType)
        else (lineTypes ts l).map crlfType := by
  induction hn : code.length using Nat.strongRecOn generalizing code p p' ts with
  | _ n ih =>
    subst hn
    cases h with
    | refl => exact ⟨[], p', .refl _ _, hp, fun l => by rw [if_neg (by omega)]; rfl⟩
    | ws c code p ts _ _ hc hs =>
      have hac : ∀ d ∈ code, IsAscii d := fun d hd => ha d (by simp [hd])
      by_cases hc' : c = '\n'
      · subst hc'
        rw [Lol.crlf, if_pos rfl]
        obtain ⟨ts', q', h1, h2, h3⟩ := ih code.length (by simp) hs hac
          (p' := (p'.afterLexeme ['\r']).afterWs '\n') (by simp [afterWs_line, Position.afterLexeme, hp]) rfl
        refine ⟨_, q', .tok ['\r'] _ _ _ _ _ _ (carriage_lexeme _) (.ws '\n' _ _ _ _ _ hc h1), h2, ?_⟩
        intro l
        have hline : (p.afterWs '\n').line = p.line + 1 := by simp [Position.afterWs]
        have hq := (scan_line_le hs).1
        rw [hline] at hq h3
        rw [lineTypes_cons, h3]
        by_cases hl : p.line = l
        · subst hl
          have h4 : lineTypes ts p.line = [] := lineTypes_before hs (by omega)
          simp only
          rw [if_pos hp, h4, if_neg (by omega), if_pos (by omega)]
          rfl
        · simp only
          rw [if_neg (by omega)]
          by_cases h5 : p.line + 1 ≤ l ∧ l < q.line
          · rw [if_pos h5, if_pos (by omega)]
          · rw [if_neg h5, if_neg (by omega)]
      · rw [crlf_cons hc']
        have hline : (p.afterWs c).line = p.line := by simp [Position.afterWs, hc']
        obtain ⟨ts', q', h1, h2, h3⟩ := ih code.length (by simp) hs hac
          (p' := p'.afterWs c) (by simp [Position.afterWs, hc', hp]) rfl
        rw [hline] at h3
        exact ⟨ts', q', .ws c _ _ _ _ _ hc h1, h2, h3⟩
    | tok lex rest0 ty p ts _ _ hl hs =>
      have hac : ∀ d ∈ rest0, IsAscii d := fun d hd => ha d (by simp [hd])
      have hlen : rest0.length < (lex ++ rest0).length := by
        have := List.length_pos_iff.2 hl.ne_nil
        simp; omega
      by_cases hb : ∃ s, ty = .commentSingleLine s
      · obtain ⟨s, rfl⟩ := hb
        cases hl with
        | btw _ rest0 h1 h2 =>
          rcases h2 with rfl | ⟨r, rfl⟩
          · obtain ⟨ts', q', h3, h4, h5⟩ := ih _ hlen hs hac (p' := p'.afterLexeme (chars!"BTW" ++ s)) hp rfl
            rw [List.append_nil, crlf_no (by simp [h1])]
            have h6 := Scan.tok _ _ _ _ _ _ _ (.btw s [] h1 (.inl rfl)) h3
            rw [List.append_nil] at h6
            refine ⟨_, q', h6, h4, ?_⟩
            intro l
            have h5 := h5 l
            generalize hz : ([] : Str) = z at hs
            cases hs with
            | refl =>
              subst hz
              rw [lineTypes_cons, lineTypes_cons, h5]
              have e1 : (p.afterLexeme (chars!"BTW" ++ s)).line = p.line := rfl
              rw [e1]
              simp only
              have hno : ¬ (p.line ≤ l ∧ l < p.line) := by omega
              rw [if_neg hno, if_neg hno, hp]
              split <;> simp [crlfType]
            | ws => cases hz
            | tok lex r ty p ts _ _ hl hs =>
              have := hl.ne_nil
              simp at hz
              exact absurd hz.1 this
          · generalize hz : '\n' :: r = z at hs
            cases hs with
            | refl => exact absurd hz.symm (hr r)
            | tok lex r' ty p ts _ _ hl hs =>
              obtain ⟨c, x, hx, hw⟩ := hl.head_not_ws
              rw [hx] at hz
              simp only [List.cons_append, List.cons.injEq] at hz
              rw [← hz.1] at hw
              exact absurd (.inr (.inr rfl)) hw
            | ws c r' p1 ts _ _ hc hs =>
              cases hz
              have hline : ((p.afterLexeme (chars!"BTW" ++ s)).afterWs '\n').line = p.line + 1 := by
                simp [Position.afterWs, Position.afterLexeme]
              obtain ⟨ts', q', h3, h4, h5⟩ := ih r.length (by simp; omega) hs
                (fun d hd => hac d (by simp [hd]))
                (p' := (p'.afterLexeme (chars!"BTW" ++ (s ++ ['\r']))).afterWs '\n')
                (by simp [Position.afterWs, Position.afterLexeme, hp]) rfl
              have h6 : Lol.crlf (chars!"BTW" ++ s ++ '\n' :: r) =
                  (chars!"BTW" ++ (s ++ ['\r'])) ++ '\n' :: Lol.crlf r := by
                rw [crlf_append, crlf_no (by simp [h1]), Lol.crlf, if_pos rfl]
                simp
              rw [h6]
              refine ⟨_, q', .tok _ _ _ _ _ _ _ (.btw (s ++ ['\r']) ('\n' :: Lol.crlf r) (by simp [h1])
                (.inr ⟨_, rfl⟩)) (.ws '\n' _ _ _ _ _ hc h3), h4, ?_⟩
              intro l
              have hq := (scan_line_le hs).1
              rw [hline] at hq h5
              rw [lineTypes_cons, lineTypes_cons, h5]
              by_cases hl : p.line = l
              · subst hl
                have h7 : lineTypes ts p.line = [] := lineTypes_before hs (by rw [hline]; omega)
                simp only
                rw [if_pos hp, if_pos trivial, h7, if_neg (by omega), if_pos (by omega)]
                rfl
              · simp only
                rw [if_neg (by omega), if_neg hl]
                by_cases h8 : p.line + 1 ≤ l ∧ l < q.line
                · rw [if_pos h8, if_pos (by omega)]
                · rw [if_neg h8, if_neg (by omega)]
      · have hb : ∀ s, ty ≠ .commentSingleLine s := fun s hs => hb ⟨s, hs⟩
        have h1 := hl.crlf (fun c hc => ha c (by simp [hc])) hb
        obtain ⟨ts', q', h3, h4, h5⟩ := ih _ hlen hs hac (p' := p'.afterLexeme (Lol.crlf lex)) hp rfl
        rw [crlf_append]
        refine ⟨_, q', .tok _ _ _ _ _ _ _ h1 h3, h4, ?_⟩
        intro l
        have e1 : (p.afterLexeme lex).line = p.line := rfl
        rw [e1] at h5
        rw [lineTypes_cons, lineTypes_cons, h5]
        simp only
        rw [hp]
        by_cases hl : p.line = l
        · rw [if_pos hl, if_pos hl]
          split
          · rw [List.map_cons, endLine_cons (crlfType_comment hb)]
          · rfl
        · rw [if_neg hl, if_neg hl]

end Lol
