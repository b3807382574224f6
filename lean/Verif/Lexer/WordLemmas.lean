import Verif.Lexer.WordSpec
import Verif.Lexer.RenameLemmas
import Verif.Lexer.TidyLemmas

/-! # Helper lemmas: other keywords in a source text -/

namespace Lol

/-- No keyword that reaches over `v` goes on behind it, unless a lexeme can start there. -/
def Ended (v : Str) : Prop := Cuts v ∨ ∀ (k : Keyword) (c : Char), ¬ (v ++ [c]) <:+: k.spelling

theorem Ended.prepend {u v : Str} (hu : Cuts u ∨ ∀ k : Keyword, ¬ (u ++ v) <:+: k.spelling) (hv : Ended v) :
    Ended (u ++ v) := by
  rcases hu with hu | hu
  · rcases hv with hv | hv
    · exact .inl (hu.prepend hv)
    · exact .inr fun k c hk => hv k c (List.IsInfix.trans ⟨u, [], by simp⟩ hk)
  · exact .inr fun k c hk => hu k (List.IsInfix.trans ⟨[], [c], by simp⟩ hk)

/-- A lexeme before a name or keyword. -/
theorem Lexeme.ended {lex g rest : Str} {d : Char} {ty : TokenType} (h : Lexeme lex (g ++ d :: rest) ty)
    (hg : WsOnly g) (hd : IsIdent d) : Ended (lex ++ g) := by
  have hdw : ¬ IsWs d := by
    rintro (rfl | rfl | rfl) <;> revert hd <;> decide
  rcases List.eq_nil_or_concat g with rfl | ⟨u, e, rfl⟩
  · have hin : ∀ {x : Char}, x ∈ lex → ¬ KeywordChar x → Ended (lex ++ []) := fun h1 h2 =>
      .inr fun k c h3 => h2 (k.chars _ (h3.subset (by simp [h1])))
    have hkw : ∀ (k : Keyword), k.spelling = lex → Ended (lex ++ []) := fun k h1 =>
      .inl (by simpa [h1] using Cuts.keyword [] k .nil)
    generalize hx : [] ++ d :: rest = x at h
    cases h with
    | comma => exact hin (x := ',') (by simp) (by decide)
    | bang => exact hin (x := '!') (by simp) (by decide)
    | btw body rest h1 h2 =>
      subst hx
      rcases h2 with h2 | ⟨r', h2⟩
      · simp at h2
      · simp at h2
        exact absurd (.inr (.inr h2.1)) hdw
    | obtw body rest h1 =>
      refine .inr fun k c hk => ?_
      have h2 : ∀ k ∈ Keyword.all, ∀ n < k.spelling.length, chars!"OBTW".isPrefixOf (k.spelling.drop n) →
          k.spelling.length = 4 := by decide +kernel
      have h3 := hk.length_le
      obtain ⟨s, t, hst⟩ := hk
      have h4 := h2 k k.mem_all s.length (by rw [← hst]; simp) (by rw [← hst]; simp)
      simp at h3
      omega
    | slot => exact hin (x := '\'') (by simp) (by decide)
    | ellipsis => exact hin (x := '.') (by simp) (by decide)
    | win => exact hkw .WIN rfl
    | fail => exact hkw .FAIL rfl
    | noob => exact hkw .NOOB rfl
    | keyword k rest h1 h2 h3 h4 h5 h6 => exact hkw k rfl
    | number lex rest n h1 =>
      obtain ⟨d, r, hd, hor⟩ := h1.head
      refine hin (x := d) (by simp [hd]) ?_
      rcases hor with hor | rfl | rfl | rfl
      · rintro (rfl | ⟨hk, -⟩)
        · exact absurd hor (by decide)
        · exact absurd (Char.le_trans hk hor.2) (by decide)
      all_goals decide
    | stringClosed body after pay c rest h1 h2 h3 h4 => exact hin (x := '"') (by simp) (by decide)
    | stringOpen body h1 => exact hin (x := '"') (by simp) (by decide)
    | identifier name rest h1 h2 h3 h4 => exact absurd hd (h3 d _ hx.symm)
    | symbol c rest h1 h2 h3 h4 h5 h6 h7 h8 h9 =>
      refine hin (x := c) (by simp) fun hk => ?_
      rcases hk with rfl | hk
      · exact h2 (.inl rfl)
      · exact h3 (.inr (.inr hk))
  · have he := hg e (by simp)
    rcases he with rfl | he
    · exact .inl (by simpa using Cuts.space (lex ++ u))
    · refine .inr fun k c hk => ?_
      have := k.chars e (hk.subset (by simp))
      rcases he with rfl | rfl <;> exact absurd this (by decide)

/-- `new` is `old`, or differs from it only from the start of a keyword on. Both stand after the text `a`. -/
inductive Reworded (a : Str) : Str → Str → Prop
  | refl (s) : Reworded a s s
  | word (w x y : Str) (k k' : Keyword) : k'.placeable = true → Ended (a ++ w) →
      Reworded a (w ++ (k.spelling ++ x)) (w ++ (k'.spelling ++ y))

theorem Reworded.prepend (a g : Str) {b x y : Str} (h : Reworded b x y) (hb : Parted (a ++ g) b) :
    Reworded a (g ++ (b ++ x)) (g ++ (b ++ y)) := by
  cases h with
  | refl => exact .refl _
  | word w x y k k' hk hw =>
    have := Reworded.word (a := a) (g ++ (b ++ w)) x y k k' hk (by
      have : a ++ (g ++ (b ++ w)) = (a ++ g) ++ (b ++ w) := by simp
      rw [this]
      refine Ended.prepend ?_ hw
      rcases hb with hb | hb
      · exact .inl hb
      · exact .inr fun k hk => hb k (List.IsInfix.trans ⟨[], w, by simp⟩ hk))
    simpa using this

/-- No keyword goes on with a placeable keyword. -/
theorem Keyword.placeable_apart {j k : Keyword} (hk : k.placeable = true) {v u r : Str} (hj : j.spelling = v ++ u)
    (hv : Cuts v) (hv' : v ≠ []) (hu : u ≠ []) (hp : u <+: k.spelling ++ r) : False := by
  have h1 : (Keyword.all.all fun k => !k.placeable || Keyword.all.all fun j => (List.range j.spelling.length).all fun n =>
      n == 0 || !cutsB n (j.spelling.take n) || !((j.spelling.drop n).isPrefixOf k.spelling ||
        k.spelling.isPrefixOf (j.spelling.drop n))) = true := by
    decide +kernel
  simp only [List.all_eq_true, List.mem_range, Bool.or_eq_true, Bool.not_eq_true', beq_iff_eq] at h1
  have hlu : 0 < u.length := List.length_pos_iff.2 hu
  have hlv : 0 < v.length := List.length_pos_iff.2 hv'
  have h2 := (h1 k k.mem_all).resolve_left (by simp [hk]) j j.mem_all v.length (by rw [hj]; simp; omega)
  rw [hj, List.take_left' rfl, List.drop_left' rfl, hv.bool _ (Nat.le_refl _)] at h2
  rcases h2 with (h2 | h2) | h2
  · omega
  · cases h2
  · simp only [Bool.or_eq_false_iff] at h2
    rcases Nat.le_total u.length k.spelling.length with hle | hle
    · have : u <+: k.spelling := List.prefix_of_prefix_length_le hp (List.prefix_append _ _) hle
      rw [List.isPrefixOf_iff_prefix.2 this] at h2
      exact absurd h2.1 (by simp)
    · have : k.spelling <+: u := List.prefix_of_prefix_length_le (List.prefix_append _ _) hp hle
      rw [List.isPrefixOf_iff_prefix.2 this] at h2
      exact absurd h2.2 (by simp)

theorem Reworded.prefix_old {a x y : Str} {j : Keyword} (h : Reworded a x y) (ha : a ≠ [])
    (hp : j.spelling <+: a ++ y) : j.spelling <+: a ++ x := by
  cases h with
  | refl => exact hp
  | word w x y k k' hk hw =>
    rw [← List.append_assoc] at hp ⊢
    obtain ⟨r, hr⟩ := hp
    rcases List.append_eq_append_iff.1 hr with ⟨u, h1, h2⟩ | ⟨u, h1, h2⟩
    · exact ⟨u ++ (k.spelling ++ x), by rw [h1]; simp⟩
    · cases u with
      | nil => exact ⟨k.spelling ++ x, by rw [h1]; simp⟩
      | cons e u =>
        exfalso
        rcases hw with hw | hw
        · exact Keyword.placeable_apart hk h1 hw (by simp [ha]) (by simp) ⟨r, h2.symm⟩
        · exact hw j e ⟨[], u, by rw [h1]; simp⟩

/-- A character that a keyword can start with. -/
def IsUpper (c : Char) : Prop := 'A' ≤ c ∧ c ≤ 'Z'

theorem IsUpper.ident {c : Char} (h : IsUpper c) : IsIdent c := .inr (.inr h)

theorem Reworded.head {a x y : Str} (h : Reworded a x y) {c : Char} {r : Str} (hy : y = c :: r) :
    ∃ d r', x = d :: r' ∧ (d = c ∨ IsUpper d ∧ IsUpper c ∧ c ≠ 'Z') := by
  cases h with
  | refl => exact ⟨_, _, hy, .inl rfl⟩
  | word w x y k k' hk hw =>
    cases w with
    | cons e w =>
      simp at hy
      exact ⟨e, w ++ (k.spelling ++ x), rfl, .inl hy.1⟩
    | nil =>
      obtain ⟨d, s, h1, h2⟩ := k.spelling_head
      obtain ⟨c', s', h3, h4⟩ := k'.spelling_head
      have hz : ∀ k ∈ Keyword.all, k.spelling.head? ≠ some 'Z' := by decide +kernel
      have hz := hz k' k'.mem_all
      rw [h3] at hy hz
      simp at hy hz
      exact ⟨d, s ++ x, by simp [h1], .inr ⟨h2, hy.1 ▸ h4, hy.1 ▸ hz⟩⟩

theorem Reworded.nil {a y : Str} (h : Reworded a [] y) : y = [] := by
  cases y with
  | nil => rfl
  | cons c r =>
    obtain ⟨d, r', h1, -⟩ := h.head rfl
    cases h1

theorem Reworded.ne_nil {a x y : Str} (h : Reworded a x y) (hx : x ≠ []) : y ≠ [] := by
  cases h with
  | refl => exact hx
  | word w x y k k' =>
    obtain ⟨c, r, h, -⟩ := k'.spelling_head
    simp [h]

theorem NumberLexeme.no_upper {lex r : Str} {n : NumberToken} (h : NumberLexeme lex r n) : ∀ e ∈ lex, ¬ IsUpper e := by
  have hd : ∀ e, IsDigit e → ¬ IsUpper e := fun e he hl => hl.ident.not_number.1 he
  have hs : ∀ sgn, IsSign sgn → ∀ e ∈ sgn, ¬ IsUpper e := by
    intro sgn hs e he
    rcases hs with rfl | rfl | rfl
    · cases he
    · rcases List.mem_singleton.1 he with rfl; unfold IsUpper; decide
    · rcases List.mem_singleton.1 he with rfl; unfold IsUpper; decide
  intro e he
  cases h with
  | int sgn ds c rest h1 h2 h3 =>
    rcases List.mem_append.1 he with he | he
    · exact hs _ h1 e he
    · exact hd e (h3 e he)
  | float sgn ds es c rest x h1 h2 h3 h4 =>
    rcases List.mem_append.1 he with he | he
    · rcases List.mem_append.1 he with he | he
      · exact hs _ h1 e he
      · exact hd e (h3 e he)
    · rcases List.mem_cons.1 he with rfl | he
      · unfold IsUpper; decide
      · exact hd e (h4 e he)

/-- A number in the new text was one in the old. -/
theorem Reworded.number {a b x y lex r : Str} {n : NumberToken} (h : Reworded b x y) (he : a ++ y = lex ++ r)
    (hn : NumberLexeme lex r n) : ∃ r', a ++ x = lex ++ r' ∧ NumberLexeme lex r' n := by
  cases h with
  | refl => exact ⟨r, he, hn⟩
  | word w x y k k' hk hw =>
    obtain ⟨c, s, h1, h2⟩ := k'.spelling_head
    obtain ⟨d, s', h3, h4⟩ := k.spelling_head
    have hc := (show IsIdent c from IsUpper.ident h2).not_number
    have hd := (show IsIdent d from IsUpper.ident h4).not_number
    rw [h1] at he
    rw [h3]
    rw [← List.append_assoc] at he
    have hlt : ∃ u, a ++ w = lex ++ u ∧ r = u ++ (c :: s ++ y) := by
      rcases List.append_eq_append_iff.1 he with ⟨u, g1, g2⟩ | ⟨u, g1, g2⟩
      · cases u with
        | nil => exact ⟨[], by simpa using g1.symm, by simpa using g2.symm⟩
        | cons e u =>
          simp only [List.cons_append, List.cons.injEq] at g2
          obtain ⟨rfl, -⟩ := g2
          exact absurd h2 (hn.no_upper c (by rw [g1]; simp))
      · exact ⟨u, g1, g2⟩
    obtain ⟨u, hu, hr⟩ := hlt
    refine ⟨u ++ (d :: s' ++ x), by rw [← List.append_assoc, hu]; simp, ?_⟩
    subst hr
    cases u with
    | nil => exact hn.change _ (.inr hd)
    | cons e u => exact hn.change _ (.inl rfl)

/-- A lexeme stays one when keywords after it are changed. -/
theorem Lexeme.reworded {lex rest rest' : Str} {ty : TokenType} (h : Lexeme lex rest ty)
    (hm : ∀ s, ty = .value (.string s) → ∀ c ∈ s, IsAscii c) (hw : Reworded lex rest rest') : Lexeme lex rest' ty := by
  cases h with
  | comma => exact .comma _
  | bang => exact .bang _
  | btw body rest h1 h2 =>
    refine .btw body _ h1 ?_
    rcases h2 with rfl | ⟨r, rfl⟩
    · exact .inl hw.nil
    · obtain ⟨c, r', rfl⟩ := List.exists_cons_of_ne_nil (hw.ne_nil (by simp))
      obtain ⟨d, r1, h3, h4⟩ := hw.head rfl
      cases h3
      rcases h4 with rfl | ⟨h4, -⟩
      · exact .inr ⟨_, rfl⟩
      · exact absurd h4 (by unfold IsUpper; decide)
  | obtw body rest h1 =>
    refine .obtw body _ ?_
    intro u v huv
    apply Classical.byContradiction
    intro hlt
    have hlt : u.length < body.length := by omega
    have h4 : (u ++ chars!"TLDR") <+: body ++ chars!"TLDR" := by
      have p1 : (u ++ chars!"TLDR") <+: (body ++ chars!"TLDR") ++ rest' :=
        ⟨v, by rw [List.append_assoc, ← huv, List.append_assoc]⟩
      exact List.prefix_of_prefix_length_le p1 (List.prefix_append _ _) (by simp; omega)
    obtain ⟨w, hw⟩ := h4
    have := h1 u (w ++ rest) (by
      rw [← List.append_assoc, ← hw]; simp)
    omega
  | slot => exact .slot _
  | ellipsis => exact .ellipsis _
  | win => exact .win _
  | fail => exact .fail _
  | noob => exact .noob _
  | keyword k rest h1 h2 h3 h4 h5 h6 =>
    exact .keyword k _ (fun j hj hp => h1 j hj (hw.prefix_old k.spelling_ne hp)) h2 h3 h4 h5 h6
  | number lex rest n h1 =>
    obtain ⟨c, r, hr⟩ := List.exists_cons_of_ne_nil (hw.ne_nil (by cases h1 <;> simp))
    obtain ⟨d, r', h2, h3⟩ := hw.head hr
    subst hr h2
    refine .number _ _ _ (h1.change _ ?_)
    rcases h3 with rfl | ⟨-, h3, -⟩
    · exact .inl rfl
    · exact .inr h3.ident.not_number
  | stringClosed body after pay c rest h1 h2 h3 h4 =>
    have m1 := hm pay rfl
    have hl : pay.length = body.length := by rw [← h3, utf8Len_ascii m1]
    have := (List.cons.inj h2).2
    obtain ⟨rfl, h5⟩ := List.append_inj this (by omega)
    cases h5
    exact .stringClosed body rest' body '"' rest' h1 rfl h3 h4
  | stringOpen body h1 =>
    rw [hw.nil]
    exact .stringOpen body h1
  | identifier name rest h1 h2 h3 h4 =>
    refine .identifier _ _ h1 h2 ?_ fun k hp => h4 k (hw.prefix_old h1 hp)
    intro c r hr
    obtain ⟨d, r', h5, h6⟩ := hw.head hr
    have h7 := h3 d r' h5
    rcases h6 with rfl | ⟨h6, -⟩
    · exact h7
    · exact absurd h6.ident h7
  | symbol c rest h1 h2 h3 h4 h5 h6 h7 h8 h9 =>
    refine .symbol c _ h1 h2 h3 h4 h5 h6 ?_ ?_ ?_
    · rintro ⟨r, hr⟩
      simp only [List.cons_append, List.cons.injEq] at hr
      obtain ⟨rfl, hr⟩ := hr
      obtain ⟨d, r', g1, g2⟩ := hw.head hr.symm
      rcases g2 with rfl | ⟨-, -, g2⟩
      · exact h7 ⟨r', by rw [g1]; rfl⟩
      · exact g2 rfl
    · rintro ⟨r, hr⟩
      simp only [List.cons_append, List.cons.injEq] at hr
      obtain ⟨rfl, hr⟩ := hr
      cases hw with
      | refl => exact h8 ⟨r, by rw [← hr]; rfl⟩
      | word w x y k k' hk hw =>
        obtain ⟨e, s, g1, g2⟩ := k'.spelling_head
        have hne : e ≠ '.' := by rintro rfl; revert g2; decide
        rw [g1] at hr
        match w with
        | [] => simp at hr; exact hne hr.1.symm
        | [f] => simp at hr; exact hne hr.2.1.symm
        | f :: f' :: w =>
          simp at hr
          refine h8 ⟨w ++ (k.spelling ++ x), ?_⟩
          simp [← hr.1, ← hr.2.1]
    · intro lex x n hx hn
      obtain ⟨r', h10, h11⟩ := hw.number (a := [c]) hx hn
      exact h9 _ _ _ h10 h11

theorem Lexeme.keyword_inv {lex rest : Str} {k : Keyword} (h : Lexeme lex rest (.keyword k)) : lex = k.spelling := by
  cases h
  rfl

/-- A placeable keyword is one before any text. -/
theorem Keyword.placeable_lexeme {k : Keyword} (hk : k.placeable = true) (rest : Str) :
    Lexeme k.spelling rest (.keyword k) := by
  have h1 : (Keyword.all.all fun k => !k.placeable || Keyword.all.all fun j => !(j.ctorIdx < k.ctorIdx) ||
      !(j.spelling.isPrefixOf k.spelling || k.spelling.isPrefixOf j.spelling)) = true := by
    decide +kernel
  simp only [List.all_eq_true, Bool.or_eq_true, Bool.not_eq_true', decide_eq_false_iff_not, Bool.or_eq_false_iff] at h1
  refine .keyword k rest ?_ ?_ ?_ ?_ ?_ ?_
  · intro j hj hp
    have h2 := ((h1 k k.mem_all).resolve_left (by simp [hk]) j j.mem_all).resolve_left (by omega)
    rcases Nat.le_total j.spelling.length k.spelling.length with hle | hle
    · have := List.prefix_of_prefix_length_le hp (List.prefix_append _ _) hle
      rw [List.isPrefixOf_iff_prefix.2 this] at h2
      exact absurd h2.1 (by simp)
    · have := List.prefix_of_prefix_length_le (List.prefix_append _ _) hp hle
      rw [List.isPrefixOf_iff_prefix.2 this] at h2
      exact absurd h2.2 (by simp)
  all_goals (rintro rfl; cases hk)

theorem Lexeme.reword {ρ : TokenType → TokenType} (hρ : Rewording ρ) {ps : List Piece} {tail lex : Str} {ty : TokenType}
    (h : Lexeme lex (layout ps tail) ty) (hl : Lexed ps tail) :
    Reworded lex (layout ps tail) (layout (ps.map (Piece.reword ρ)) tail) := by
  induction ps generalizing lex ty with
  | nil => exact .refl _
  | cons p ps ih =>
    obtain ⟨h1, h2, h3⟩ := hl
    obtain ⟨g, lex', ty'⟩ := p
    have h2 : Lexeme lex' (layout ps tail) ty' := h2
    have h : Lexeme lex (g ++ (lex' ++ layout ps tail)) ty := h
    have hsame : Reworded lex (g ++ (lex' ++ layout ps tail))
        (g ++ (lex' ++ layout (ps.map (Piece.reword ρ)) tail)) :=
      (ih h2 h3).prepend lex g (h.parted h1 h2.head_not_ws)
    show Reworded lex (g ++ (lex' ++ layout ps tail)) _
    rw [List.map_cons]
    rcases hρ ty' with he | ⟨k, k', rfl, he, hk⟩
    · have : Piece.reword ρ ⟨g, lex', ty'⟩ = ⟨g, lex', ty'⟩ := by
        simp only [Piece.reword, he]
        cases ty' <;> simp
        exact h2.keyword_inv.symm
      rw [this]
      exact hsame
    · have : Piece.reword ρ ⟨g, lex', .keyword k⟩ = ⟨g, k'.spelling, .keyword k'⟩ := by
        simp only [Piece.reword, he]
      rw [this]
      obtain rfl := h2.keyword_inv
      obtain ⟨d, r, h4, h5⟩ := k.spelling_head
      rw [h4] at h
      have := h.ended h1 (show IsIdent d from IsUpper.ident h5)
      exact .word g _ _ k k' hk this

theorem Lexed.reword {ρ : TokenType → TokenType} (hρ : Rewording ρ) {ps : List Piece} {tail : Str}
    (h : Lexed ps tail) (hm : ∀ p ∈ ps, ∀ s, p.type = .value (.string s) → ∀ c ∈ s, IsAscii c) :
    Lexed (ps.map (Piece.reword ρ)) tail := by
  induction ps with
  | nil => exact h
  | cons p ps ih =>
    obtain ⟨h1, h2, h3⟩ := h
    have ih := ih h3 fun p hp => hm p (by simp [hp])
    obtain ⟨g, lex, ty⟩ := p
    have h2 : Lexeme lex (layout ps tail) ty := h2
    rw [List.map_cons]
    rcases hρ ty with he | ⟨k, k', rfl, he, hk⟩
    · have : Piece.reword ρ ⟨g, lex, ty⟩ = ⟨g, lex, ty⟩ := by
        simp only [Piece.reword, he]
        cases ty <;> simp
        exact h2.keyword_inv.symm
      rw [this]
      exact ⟨h1, h2.reworded (hm ⟨g, lex, ty⟩ (by simp)) (h2.reword hρ h3), ih⟩
    · have : Piece.reword ρ ⟨g, lex, .keyword k⟩ = ⟨g, k'.spelling, .keyword k'⟩ := by
        simp only [Piece.reword, he]
      rw [this]
      exact ⟨h1, Keyword.placeable_lexeme hk _, ih⟩

end Lol
