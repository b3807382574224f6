import Verif.Lexer.RenameLemmas
import Verif.Lexer.ComposeLemmas

/-! # Helper lemmas: a comma in place of a newline, and the other way round -/

namespace Lol

/-- A comma or a newline. -/
def IsSep (c : Char) : Prop := c = ',' ∨ c = '\n'

/-- A comma, a newline or an exclamation mark. -/
def IsMark (c : Char) : Prop := c = ',' ∨ c = '\n' ∨ c = '!'

theorem IsSep.mark {c : Char} (h : IsSep c) : IsMark c := h.elim .inl fun h => .inr (.inl h)

theorem IsMark.not_number {c : Char} (h : IsMark c) : ¬ IsDigit c ∧ c ≠ '.' := by
  rcases h with rfl | rfl | rfl <;> decide

theorem IsMark.not_ident {c : Char} (h : IsMark c) : ¬ IsIdent c := by
  rcases h with rfl | rfl | rfl <;> decide

theorem IsMark.not_string {c : Char} (h : IsMark c) : c ≠ '"' ∧ c ≠ ':' := by
  rcases h with rfl | rfl | rfl <;> decide

theorem IsMark.size {c : Char} (h : IsMark c) : c.utf8Size = 1 := by
  rcases h with rfl | rfl | rfl <;> rfl

theorem IsMark.not_keyword {c : Char} (h : IsMark c) (k : Keyword) : c ∉ k.spelling := by
  rcases h with rfl | rfl | rfl
  · cases k <;> decide
  · exact k.spelling_line
  · cases k <;> decide

theorem NumberLexeme.no_sep {lex rest : Str} {n : NumberToken} (h : NumberLexeme lex rest n) {c : Char}
    (hc : IsMark c) : c ∉ lex := by
  have hd : ∀ ds : Str, (∀ d ∈ ds, IsDigit d) → c ∉ ds := fun ds h hm => hc.not_number.1 (h _ hm)
  have hs : ∀ s : Str, IsSign s → c ∉ s := by
    rintro s (rfl | rfl | rfl)
    · simp
    · rcases hc with rfl | rfl | rfl <;> decide
    · rcases hc with rfl | rfl | rfl <;> decide
  cases h with
  | int sgn ds c rest h1 h2 h3 => simp [hs _ h1, hd _ h3]
  | float sgn ds es e rest x h1 h2 h3 h4 => simp [hs _ h1, hd _ h3, hd _ h4, hc.not_number.2]

theorem prefix_before_char {s x b : Str} {c : Char} (hs : c ∉ s) (h : s <+: x ++ c :: b) : s <+: x := by
  obtain ⟨r, hr⟩ := h
  rcases List.append_eq_append_iff.1 hr with ⟨u, h1, h2⟩ | ⟨u, h1, h2⟩
  · exact ⟨u, h1.symm⟩
  · cases u with
    | nil => simp at h1; exact ⟨[], by simp [h1]⟩
    | cons e u =>
      simp at h2
      exact absurd (by rw [h1, ← h2.1]; simp) hs

theorem not_prefix_sep {s x b : Str} {d d' : Char} (hs : d' ∉ s) (h : ¬ s <+: x ++ d :: b) :
    ¬ s <+: x ++ d' :: b := fun hp =>
  h ((prefix_before_char hs hp).trans (List.prefix_append _ _))

theorem QuotesEscaped.sep {x y : Str} {d d' : Char} (hd : IsMark d) (hd' : IsMark d')
    (h : QuotesEscaped (x ++ d :: y)) : QuotesEscaped (x ++ d' :: y) := by
  intro u v huv
  rcases List.append_eq_append_iff.1 huv with ⟨w, h1, h2⟩ | ⟨w, h1, h2⟩
  · cases w with
    | nil =>
      simp at h2
      exact absurd h2.1 hd'.not_string.1
    | cons e w =>
      simp at h2
      obtain ⟨rfl, rfl⟩ := h2
      obtain ⟨z, hz⟩ := h (x ++ d :: w) v (by simp)
      rcases List.eq_nil_or_concat w with rfl | ⟨w', g, rfl⟩
      · rw [show x ++ [d] = x ++ [d] from rfl] at hz
        have := (List.append_inj' hz rfl).2
        simp at this
        exact absurd this hd.not_string.2
      · refine ⟨x ++ d' :: w', ?_⟩
        have : x ++ d :: (w' ++ [g]) = (x ++ d :: w') ++ [g] := by simp
        rw [List.concat_eq_append, this] at hz
        have := (List.append_inj' hz rfl).2
        simp at this
        subst this
        subst h1
        simp
  · cases w with
    | nil =>
      simp at h2
      exact absurd h2.1.symm hd'.not_string.1
    | cons e w =>
      simp at h2
      obtain ⟨rfl, rfl⟩ := h2
      exact h u (w ++ d :: y) (by simp [h1])

theorem StringBody.sep {x y : Str} {d d' : Char} (hd : IsMark d) (hd' : IsMark d') (h : StringBody (x ++ d :: y)) :
    StringBody (x ++ d' :: y) := by
  refine ⟨h.1.sep hd hd', fun u hu => ?_⟩
  rcases List.eq_nil_or_concat y with rfl | ⟨w', g, rfl⟩
  · have := (List.append_inj' hu rfl).2
    simp at this
    exact hd'.not_string.2 this
  · have h1 : x ++ d' :: w'.concat g = (x ++ d' :: w') ++ [g] := by simp
    rw [h1] at hu
    have := (List.append_inj' hu rfl).2
    simp at this
    subst this
    exact h.2 (x ++ d :: w') (by simp)

/-- A lexeme stays one when a comma, a newline or an exclamation mark after it becomes another one of these. -/
theorem Lexeme.sep {lex r b : Str} {d d' : Char} {ty : TokenType} (hd : IsMark d) (hd' : IsMark d')
    (h : Lexeme lex (r ++ d :: b) ty) (hc : d' = '\n' ∨ r ≠ [] ∨ ∀ s, ty ≠ .commentSingleLine s) :
    Lexeme lex (r ++ d' :: b) ty := by
  generalize he : r ++ d :: b = rest at h
  cases h with
  | comma => exact .comma _
  | bang => exact .bang _
  | btw body rest h1 h2 =>
    refine .btw body _ h1 (.inr ?_)
    rcases h2 with rfl | ⟨x, rfl⟩
    · simp at he
    · cases r with
      | nil =>
        rcases hc with rfl | hc | hc
        · exact ⟨b, rfl⟩
        · exact absurd rfl hc
        · exact absurd rfl (hc _)
      | cons e r =>
        simp at he
        exact ⟨r ++ d' :: b, by simp [he.1]⟩
  | obtw body rest h1 =>
    refine .obtw body _ ?_
    intro u v huv
    apply Classical.byContradiction
    intro hlt
    have hlt : u.length < body.length := by omega
    have h4 : (u ++ chars!"TLDR") <+: body ++ chars!"TLDR" := by
      have p1 : (u ++ chars!"TLDR") <+: (body ++ chars!"TLDR") ++ (r ++ d' :: b) :=
        ⟨v, by rw [List.append_assoc, ← huv, List.append_assoc]⟩
      exact List.prefix_of_prefix_length_le p1 (List.prefix_append _ _) (by simp; omega)
    obtain ⟨w, hw⟩ := h4
    have := h1 u (w ++ rest) (by
      rw [← List.append_assoc, ← hw]; simp)
    omega
  | slot => exact .slot _
  | ellipsis => exact .ellipsis _
  | win => exact .win _
  | fail => exact .fail _
  | noob => exact .noob _
  | keyword k rest h1 h2 h3 h4 h5 h6 =>
    subst he
    refine .keyword k _ ?_ h2 h3 h4 h5 h6
    intro j hj
    rw [← List.append_assoc]
    exact not_prefix_sep (hd'.not_keyword j) (by rw [List.append_assoc]; exact h1 j hj)
  | number lex rest n h1 =>
    subst he
    cases r with
    | nil => exact .number _ _ _ (h1.change _ (.inr hd'.not_number))
    | cons e r => exact .number _ _ _ h1.rest_head
  | stringClosed body after pay c rest h1 h2 h3 h4 =>
    subst he
    have h2 := (List.cons.inj h2).2
    have h5 : body ++ '"' :: after = (pay ++ c :: r) ++ d :: b := by rw [h2]; simp
    rcases List.append_eq_append_iff.1 h5 with ⟨w, g1, g2⟩ | ⟨w, g1, g2⟩
    · cases w with
      | nil =>
        simp at g2
        exact absurd g2.1.symm hd.not_string.1
      | cons e w =>
        simp at g2
        obtain ⟨rfl, rfl⟩ := g2
        refine .stringClosed body (w ++ d' :: b) pay c _ h1 ?_ h3 h4
        have : pay ++ c :: (r ++ d' :: b) = (pay ++ c :: r) ++ d' :: b := by simp
        rw [this, g1]
        simp
    · cases w with
      | nil =>
        simp at g2
        exact absurd g2.1 hd.not_string.1
      | cons e w =>
        simp at g2
        obtain ⟨rfl, rfl⟩ := g2
        refine .stringClosed (pay ++ c :: r ++ d' :: w) after pay c _ ?_ (by simp) ?_ h4
        · rw [g1] at h1
          exact h1.sep hd hd'
        · rw [h3, g1]; simp
  | stringOpen body h1 => simp at he
  | identifier name rest h1 h2 h3 h4 =>
    subst he
    refine .identifier _ _ h1 h2 ?_ ?_
    · intro e x hx
      cases r with
      | nil => cases hx; exact hd'.not_ident
      | cons g r => cases hx; exact h3 _ _ rfl
    · intro k
      rw [← List.append_assoc]
      exact not_prefix_sep (hd'.not_keyword k) (by rw [List.append_assoc]; exact h4 k)
  | symbol c rest h1 h2 h3 h4 h5 h6 h7 h8 h9 =>
    subst he
    refine .symbol c _ h1 h2 h3 h4 h5 h6 ?_ ?_ ?_
    · exact not_prefix_sep (x := c :: r) (by rcases hd' with rfl | rfl | rfl <;> decide) h7
    · exact not_prefix_sep (x := c :: r) (by rcases hd' with rfl | rfl | rfl <;> decide) h8
    · intro lex x n hx hn
      have hp : lex <+: c :: r := prefix_before_char (x := c :: r) (b := b) (hn.no_sep hd') ⟨x, hx.symm⟩
      obtain ⟨w, hw⟩ := hp
      have hx' : x = w ++ d' :: b := by
        have : lex ++ x = lex ++ (w ++ d' :: b) := by
          rw [← hx, ← List.append_assoc, hw]; rfl
        exact List.append_cancel_left this
      subst hx'
      refine h9 lex (w ++ d :: b) n (by rw [← List.append_assoc, hw]; rfl) ?_
      cases w with
      | nil => exact hn.change _ (.inr hd.not_number)
      | cons e w => exact hn.rest_head

/-- The scan stops where the tokens end. -/
theorem Scan.stop_at {code rest : Str} {p q : Position} {ts : List Token} (h : Scan code p ts rest q) (a s : Str)
    (he : code = a ++ s) (hr : rest.length ≤ s.length) (hend : ∀ t ∈ ts, t.range.stop.bytes ≤ p.bytes + utf8Len a) :
    ∃ q', Scan code p ts s q' := by
  induction h generalizing a with
  | refl =>
    rw [he, List.length_append] at hr
    have : a = [] := List.length_eq_zero_iff.1 (by omega)
    subst this
    simp at he
    subst he
    exact ⟨_, .refl _ _⟩
  | ws c code p ts code' p' hc hs ih =>
    cases a with
    | nil =>
      have hts : ts = [] := by
        cases ts with
        | nil => rfl
        | cons t ts =>
          exfalso
          obtain ⟨pre, lex, post, before, g1, g2, g3, -, g5, g6, -⟩ := scan_token hs List.mem_cons_self
          have := hend t List.mem_cons_self
          have hb : (p.afterWs c).bytes = p.bytes + 1 := by unfold Position.afterWs; split <;> rfl
          rw [g5, Position.afterLexeme, g6, hb] at this
          simp at this
          omega
      subst hts
      simp at he
      subst he
      exact ⟨_, .refl _ _⟩
    | cons e a =>
      simp at he
      obtain ⟨rfl, rfl⟩ := he
      have hb : (p.afterWs c).bytes = p.bytes + 1 := by unfold Position.afterWs; split <;> rfl
      obtain ⟨q', hq⟩ := ih a rfl hr (fun t ht => by
        have := hend t ht
        rw [utf8Len_cons, hc.size] at this
        omega)
      exact ⟨q', .ws _ _ _ _ _ _ hc hq⟩
  | tok lex rest ty p ts code' p' hl hs ih =>
    have hlen := hend _ List.mem_cons_self
    simp only [Position.afterLexeme] at hlen
    rcases List.append_eq_append_iff.1 he with ⟨u, h1, h2⟩ | ⟨u, h1, h2⟩
    · subst h1 h2
      obtain ⟨q', hq⟩ := ih u rfl hr (fun t ht => by
        have := hend t (List.mem_cons_of_mem _ ht)
        rw [utf8Len_append] at this
        show _ ≤ p.bytes + utf8Len lex + _
        omega)
      exact ⟨q', .tok _ _ _ _ _ _ _ hl hq⟩
    · cases u with
      | nil =>
        simp at h1 h2
        subst h1 h2
        obtain ⟨q', hq⟩ := ih [] rfl hr (fun t ht => by
          have := hend t (List.mem_cons_of_mem _ ht)
          show _ ≤ p.bytes + utf8Len lex + _
          simp
          omega)
        exact ⟨q', .tok _ _ _ _ _ _ _ hl hq⟩
      | cons c u =>
        rw [h1, utf8Len_append, utf8Len_cons] at hlen
        have := utf8Size_pos c
        omega

theorem Scan.length_le {code rest : Str} {p q : Position} {ts : List Token} (h : Scan code p ts rest q) :
    rest.length + ts.length ≤ code.length := by
  induction h with
  | refl => simp
  | ws c code p ts code' p' hc hs ih => simp; omega
  | tok lex rest ty p ts code' p' hl hs ih =>
    have := List.length_pos_iff.2 hl.ne_nil
    simp
    omega

/-- What stands before a comma is read in the same way before a newline, and the other way round, unless it ends in a
single line comment. -/
theorem Scan.sep {a b : Str} {d d' : Char} (hd : IsSep d) (hd' : IsSep d') {p q : Position} {ts : List Token}
    (h : Scan (a ++ d :: b) p ts (d :: b) q)
    (hc : d' = '\n' ∨ ∀ t s, ts.getLast? = some t → t.tokenType ≠ .commentSingleLine s) :
    Scan (a ++ d' :: b) p ts (d' :: b) q := by
  generalize he : a ++ d :: b = code at h
  generalize hr : d :: b = rest at h
  induction h generalizing a with
  | refl code p =>
    rw [← hr] at he
    have : a = [] := List.append_left_eq_self.1 he
    subst this
    exact .refl _ _
  | ws c code p ts code' p' hws hs ih =>
    cases a with
    | nil =>
      exfalso
      have := hs.length_le
      simp at he
      rw [← hr, ← he.2] at this
      simp at this
      omega
    | cons e a =>
      simp at he
      obtain ⟨rfl, rfl⟩ := he
      exact .ws _ _ _ _ _ _ hws (ih hc rfl hr)
  | tok lex rest ty p ts code' p' hl hs ih =>
    have hle := hs.length_le
    rcases List.append_eq_append_iff.1 he.symm with ⟨u, h1, h2⟩ | ⟨u, h1, h2⟩
    · subst h1 h2
      rw [List.append_assoc]
      refine .tok _ _ _ _ _ _ _ (hl.sep hd.mark hd'.mark ?_) (ih ?_ rfl hr)
      · rcases hc with hc | hc
        · exact .inl hc
        · cases ts with
          | nil => exact .inr (.inr fun s => hc _ s rfl)
          | cons t ts =>
            refine .inr (.inl ?_)
            rintro rfl
            rw [← hr] at hle
            simp only [List.length_cons, List.nil_append] at hle
            omega
      · refine hc.imp_right fun hc t s ht => hc t s ?_
        rw [List.getLast?_cons, ht]
        rfl
    · cases u with
      | nil =>
        simp at h1 h2
        subst h1 h2
        refine .tok _ _ _ _ _ _ _ ?_ (ih (a := []) ?_ rfl hr)
        · refine hl.sep (r := []) hd.mark hd'.mark ?_
          rcases hc with hc | hc
          · exact .inl hc
          · cases ts with
            | nil => exact .inr (.inr fun s => hc _ s rfl)
            | cons t ts =>
              rw [← hr] at hle
              simp only [List.length_cons] at hle
              omega
        · refine hc.imp_right fun hc t s ht => hc t s ?_
          rw [List.getLast?_cons, ht]
          rfl
      | cons e u =>
        exfalso
        have := congrArg List.length h2
        rw [← hr] at hle
        simp at this hle
        omega

end Lol
