import Verif.Lexer.LayoutLemmas
import Verif.Lexer.ScanLemmas
import Verif.Parser.CutSpec

/-! # Helper lemmas: how far the tokenizer looks ahead -/

namespace Lol

theorem take_head {n : Nat} {x y : Str} (h : x.take (n + 1) = y.take (n + 1)) {c : Char} {r : Str} (hy : y = c :: r) :
    ∃ r', x = c :: r' := by
  subst hy
  cases x with
  | nil => simp at h
  | cons d x =>
    simp only [List.take_succ_cons, List.cons.injEq] at h
    exact ⟨x, by rw [h.1]⟩

theorem take_nil {n : Nat} {x y : Str} (h : x.take (n + 1) = y.take (n + 1)) (hx : x = []) : y = [] := by
  subst hx
  cases y with
  | nil => rfl
  | cons d y => simp at h

/-- What does not reach beyond the first `n` characters after `a` is the same. -/
theorem prefix_take {n : Nat} {s a x y : Str} (h : x.take n = y.take n) (hs : s.length ≤ a.length + n)
    (hp : s <+: a ++ y) : s <+: a ++ x := by
  have h1 : s <+: a ++ y.take n := by
    by_cases hn : n ≤ y.length
    · exact List.prefix_of_prefix_length_le hp ((List.prefix_append_right_inj a).2 (List.take_prefix n y))
        (by simp; omega)
    · rwa [List.take_of_length_le (by omega)]
  rw [← h] at h1
  exact h1.trans ((List.prefix_append_right_inj a).2 (List.take_prefix n x))

/-- A keyword is at most 9 characters longer than its first word. -/
theorem Keyword.first_word (k : Keyword) :
    k.spelling.length ≤ (k.spelling.takeWhile fun c => decide (IsIdent c)).length + 9 := by
  cases k <;> decide

/-- A keyword that starts with another one that is later in the list is at most 9 characters longer. -/
theorem Keyword.longer (k j : Keyword) (h : k.spelling <+: j.spelling) :
    j.spelling.length ≤ k.spelling.length + 9 := by
  have h1 : ∀ k ∈ Keyword.all, ∀ j ∈ Keyword.all, k.spelling.isPrefixOf j.spelling →
    j.spelling.length ≤ k.spelling.length + 9 := by decide +kernel
  have hall : ∀ k : Keyword, k ∈ Keyword.all := by intro k; cases k <;> decide
  exact h1 k (hall k) j (hall j) (List.isPrefixOf_iff_prefix.2 h)

theorem takeWhile_word {a u : Str} (ha : ∀ c ∈ a, IsIdent c) (hu : ∀ c r, u = c :: r → ¬ IsIdent c) :
    (a ++ u).takeWhile (fun c => decide (IsIdent c)) = a := by
  rw [List.takeWhile_append_of_pos (by simpa using ha)]
  cases u with
  | nil => simp
  | cons c r => simp [List.takeWhile_cons, hu c r rfl]

/-- A lexeme depends on at most 9 characters after it. -/
theorem Lexeme.ahead {lex rest rest' : Str} {ty : TokenType} {gap : Str} (h : Lexeme lex rest ty)
    (hm : (⟨gap, lex, ty⟩ : Piece).Movable) (ht : rest.take 9 = rest'.take 9) : Lexeme lex rest' ty := by
  have hhead : ∀ c r, rest' = c :: r → ∃ r', rest = c :: r' := fun c r hr => take_head ht hr
  cases h with
  | comma => exact .comma _
  | bang => exact .bang _
  | btw body rest h1 h2 =>
    refine .btw body _ h1 ?_
    rcases h2 with rfl | ⟨r, rfl⟩
    · exact .inl (take_nil ht rfl)
    · obtain ⟨r', h⟩ := take_head ht.symm rfl
      exact .inr ⟨r', h⟩
  | obtw body rest h1 =>
    refine .obtw body _ ?_
    intro u v huv
    apply Classical.byContradiction
    intro hlt
    have hlt : u.length < body.length := by omega
    have h4 : (u ++ chars!"TLDR") <+: body ++ chars!"TLDR" := by
      have p1 : (u ++ chars!"TLDR") <+: (body ++ chars!"TLDR") ++ rest' :=
        ⟨v, by rw [List.append_assoc, ← huv, List.append_assoc]⟩
      exact List.prefix_of_prefix_length_le p1 (List.prefix_append _ _) (by simp; omega)
    obtain ⟨w, hw⟩ := h4
    have := h1 u (w ++ rest) (by
      rw [← List.append_assoc, ← hw]; simp)
    omega
  | slot => exact .slot _
  | ellipsis => exact .ellipsis _
  | win => exact .win _
  | fail => exact .fail _
  | noob => exact .noob _
  | keyword k rest h1 h2 h3 h4 h5 h6 =>
    refine .keyword k _ (fun j hj hp => h1 j hj ?_) h2 h3 h4 h5 h6
    refine prefix_take ht ?_ hp
    by_cases hl : j.spelling.length ≤ k.spelling.length
    · omega
    · exact Keyword.longer k j (List.prefix_of_prefix_length_le (List.prefix_append _ _) hp (by omega))
  | number lex rest n h1 =>
    cases h1 with
    | int sgn ds d rest g1 g2 g3 g4 g5 g6 =>
      obtain ⟨r, rfl⟩ := take_head ht.symm rfl
      exact .number _ _ _ (.int sgn ds d r g1 g2 g3 g4 g5 g6)
    | float sgn ds es d rest x g1 g2 g3 g4 g5 g6 =>
      obtain ⟨r, rfl⟩ := take_head ht.symm rfl
      exact .number _ _ _ (.float sgn ds es d r x g1 g2 g3 g4 g5 g6)
  | stringClosed body after pay c rest h1 h2 h3 h4 =>
    obtain ⟨m1, m2⟩ := hm.1 pay rfl
    simp only [List.cons.injEq, List.append_cancel_left_eq, true_and, and_true] at m2
    subst m2
    have hl : pay.length = body.length := by rw [← h3, utf8Len_ascii m1]
    have hb : pay = body := by
      have := (List.cons.inj h2).2
      exact (List.append_inj this (by omega)).1.symm
    subst hb
    exact .stringClosed pay rest' pay '"' rest' h1 rfl h3 h4
  | stringOpen body h1 =>
    have := congrArg List.length (hm.1 body rfl).2
    simp at this
  | identifier name rest h1 h2 h3 h4 =>
    have h3' : ∀ c r, rest' = c :: r → ¬ IsIdent c := by
      intro c r hr
      obtain ⟨r', hr'⟩ := hhead c r hr
      exact h3 c r' hr'
    refine .identifier _ _ h1 h2 h3' fun k hp => h4 k ?_
    refine prefix_take ht ?_ hp
    by_cases hl : k.spelling.length ≤ lex.length
    · omega
    · have hw : lex <+: k.spelling := List.prefix_of_prefix_length_le (List.prefix_append _ _) hp (by omega)
      obtain ⟨u, hu⟩ := hw
      have := k.first_word
      rw [← hu, takeWhile_word h2 ?_] at this
      · rw [← hu]; exact this
      · rintro c r rfl
        obtain ⟨v, hv⟩ := hp
        rw [← hu, List.append_assoc, List.append_cancel_left_eq] at hv
        exact h3' c (r ++ v) (by rw [← hv]; rfl)
  | symbol c rest h1 h2 h3 h4 h5 h6 h7 h8 h9 =>
    obtain ⟨m1, m2, m3, m4⟩ := hm.2 c rfl
    refine .symbol c _ h1 h2 h3 h4 h5 h6 ?_ ?_ ?_
    · exact fun hp => h7 (prefix_take (a := [c]) ht (by simp) hp)
    · exact fun hp => h8 (prefix_take (a := [c]) ht (by simp) hp)
    · intro lex x n hx hn
      obtain ⟨d, r, rfl, hd⟩ := hn.head
      simp at hx
      rcases hd with hd | hd | hd | hd
      · exact m1 (hx.1 ▸ hd)
      · exact m2 (hx.1.trans hd)
      · exact m3 (hx.1.trans hd)
      · exact m4 (hx.1.trans hd)

theorem Lexeme.movable {lex rest : Str} {ty : TokenType} {p : Position} (hl : Lexeme lex rest ty)
    (hm : Token.Movable ⟨ty, ⟨p, p.afterLexeme lex⟩⟩) : (⟨[], lex, ty⟩ : Piece).Movable := by
  refine ⟨fun s hs => ?_, hm.2⟩
  cases hs
  obtain ⟨m3, m4⟩ := hm.1 s rfl
  refine ⟨m3, ?_⟩
  have hlen : utf8Len lex = s.length + 2 := by
    simp only [Position.afterLexeme] at m4; omega
  cases hl with
  | stringOpen body g1 =>
    rw [utf8Len_cons, utf8Len_ascii m3] at hlen
    have : ('"' : Char).utf8Size = 1 := rfl
    omega
  | stringClosed body after pay c rest g1 g2 g3 g4 =>
    have g5 := (List.cons.inj g2).2
    obtain ⟨g6, g7⟩ := List.append_inj g5 (by rw [← g3, utf8Len_ascii m3])
    cases g7
    rfl

theorem split_prefix_utf8 {a b c d : Str} (h : a ++ b = c ++ d) (hl : utf8Len a ≤ utf8Len c) :
    ∃ e, c = a ++ e ∧ b = e ++ d := by
  rcases List.append_eq_append_iff.1 h with ⟨e, h1, h2⟩ | ⟨e, h1, h2⟩
  · exact ⟨e, h1, h2⟩
  · subst h1
    rw [utf8Len_append] at hl
    have : e = [] := by
      cases e with
      | nil => rfl
      | cons x e =>
        have := utf8Len_pos (s := x :: e) (by simp)
        omega
    subst this
    exact ⟨[], by simp, by simpa using h2.symm⟩

/-- Movable tokens that end early enough are found again, whatever comes later. -/
theorem Scan.ahead {code : Str} {pos q : Position} {ts : List Token} {fin : Str} (h : Scan code pos ts fin q)
    {a m b b' : Str} (hc : code = a ++ (m ++ b)) (hm : 9 ≤ m.length) {p r : List Token} (ht : ts = p ++ r)
    (hp : ∀ t ∈ p, t.Movable ∧ t.range.stop.bytes ≤ pos.bytes + utf8Len a) :
    ∃ a' q', Scan (a ++ (m ++ b')) pos p (a' ++ (m ++ b')) q' := by
  induction h generalizing a p with
  | refl code pos =>
    have : p = [] := by
      cases p with
      | nil => rfl
      | cons t p => simp at ht
    subst this
    exact ⟨a, _, .refl _ _⟩
  | ws c code pos ts fin q hws hs ih =>
    cases p with
    | nil => exact ⟨a, _, .refl _ _⟩
    | cons t p =>
      cases a with
      | nil =>
        have h1 := (scan_ordered hs).1 t (by rw [ht]; simp)
        have h2 := (hp t (by simp)).2
        have h3 := lt_afterWs pos c
        have h4 := h3.trans (match h1.1 with | .inl h => h ▸ h1.2.1 | .inr h => h.trans h1.2.1)
        simp only [utf8Len_nil] at h2
        unfold Position.Lt at h4
        omega
      | cons d a =>
        simp only [List.cons_append, List.cons.injEq] at hc
        obtain ⟨rfl, rfl⟩ := hc
        obtain ⟨a', q', h1⟩ := ih rfl ht (fun t ht' => by
          have := hp t ht'
          rw [afterWs_bytes]
          rw [utf8Len_cons, hws.size] at this
          exact ⟨this.1, by omega⟩)
        exact ⟨a', q', .ws _ _ _ _ _ _ hws h1⟩
  | tok lex rest ty pos ts fin q hl hs ih =>
    cases p with
    | nil => exact ⟨a, _, .refl _ _⟩
    | cons t p =>
      simp only [List.cons_append, List.cons.injEq] at ht
      obtain ⟨rfl, rfl⟩ := ht
      obtain ⟨h1, h2⟩ := hp _ List.mem_cons_self
      simp only [Position.afterLexeme] at h2
      obtain ⟨a1, rfl, rfl⟩ := split_prefix_utf8 hc (by omega)
      obtain ⟨a', q', h3⟩ := ih rfl rfl (fun t ht' => by
        have := hp t (by simp [ht'])
        rw [utf8Len_append] at this
        simp only [Position.afterLexeme]
        exact ⟨this.1, by omega⟩)
      refine ⟨a', q', ?_⟩
      rw [List.append_assoc]
      refine .tok _ _ _ _ _ _ _ (hl.ahead (hl.movable h1) ?_) h3
      have hl9 : 9 ≤ (a1 ++ m).length := by rw [List.length_append]; omega
      rw [← List.append_assoc, ← List.append_assoc, List.take_append_of_le_length hl9,
        List.take_append_of_le_length hl9]

/-- A scan comes to every place that is not inside a token. -/
theorem Scan.reach {code : Str} {pos q : Position} {ts : List Token} {fin : Str} (h : Scan code pos ts fin q)
    {x c : Str} (hc : code = x ++ c) {p r : List Token} (ht : ts = p ++ r) (hf : fin = [])
    (hp : ∀ t ∈ p, t.range.stop.bytes ≤ pos.bytes + utf8Len x)
    (hr : ∀ t ∈ r, pos.bytes + utf8Len x ≤ t.range.start.bytes) : ∃ q', Scan code pos p c q' ∧ Scan c q' r [] q := by
  induction h generalizing x p with
  | refl code pos =>
    subst hf
    obtain ⟨rfl, rfl⟩ := List.append_eq_nil_iff.1 hc.symm
    obtain ⟨rfl, rfl⟩ := List.append_eq_nil_iff.1 ht.symm
    exact ⟨_, .refl _ _, .refl _ _⟩
  | ws d code pos ts fin q hws hs ih =>
    cases x with
    | nil =>
      have : p = [] := by
        cases p with
        | nil => rfl
        | cons t p =>
          have h1 := (scan_ordered hs).1 t (by rw [ht]; simp)
          have h2 := hp t (by simp)
          have h3 := lt_afterWs pos d
          have h4 := h3.trans (match h1.1 with | .inl h => h ▸ h1.2.1 | .inr h => h.trans h1.2.1)
          simp only [utf8Len_nil] at h2
          unfold Position.Lt at h4
          omega
      subst this
      simp only [List.nil_append] at hc ht
      subst hc ht hf
      exact ⟨_, .refl _ _, .ws _ _ _ _ _ _ hws hs⟩
    | cons e x =>
      simp only [List.cons_append, List.cons.injEq] at hc
      obtain ⟨rfl, rfl⟩ := hc
      obtain ⟨q', h1, h2⟩ := ih rfl ht hf (fun t ht' => by
          have := hp t ht'
          rw [afterWs_bytes]
          rw [utf8Len_cons, hws.size] at this
          omega) (fun t ht' => by
          have := hr t ht'
          rw [afterWs_bytes]
          rw [utf8Len_cons, hws.size] at this
          omega)
      exact ⟨q', .ws _ _ _ _ _ _ hws h1, h2⟩
  | tok lex rest ty pos ts fin q hl hs ih =>
    cases p with
    | nil =>
      cases r with
      | nil => cases ht
      | cons t r =>
        simp only [List.nil_append, List.cons.injEq] at ht
        obtain ⟨rfl, rfl⟩ := ht
        have := hr _ List.mem_cons_self
        simp only at this
        have : x = [] := by
          cases x with
          | nil => rfl
          | cons e x =>
            have := utf8Len_pos (s := e :: x) (by simp)
            omega
        subst this
        simp only [List.nil_append] at hc
        subst hc hf
        exact ⟨_, .refl _ _, .tok _ _ _ _ _ _ _ hl hs⟩
    | cons t p =>
      simp only [List.cons_append, List.cons.injEq] at ht
      obtain ⟨rfl, rfl⟩ := ht
      have h2 := hp _ List.mem_cons_self
      simp only [Position.afterLexeme] at h2
      obtain ⟨x1, rfl, rfl⟩ := split_prefix_utf8 hc (by omega)
      obtain ⟨q', h3, h4⟩ := ih rfl rfl hf (fun t ht' => by
        have := hp t (by simp [ht'])
        rw [utf8Len_append] at this
        simp only [Position.afterLexeme]
        omega) (fun t ht' => by
        have := hr t ht'
        rw [utf8Len_append] at this
        simp only [Position.afterLexeme]
        omega)
      exact ⟨q', .tok _ _ _ _ _ _ _ hl h3, h4⟩

end Lol
