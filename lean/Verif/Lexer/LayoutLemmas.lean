import Verif.Lexer.LayoutSpec
import Verif.Lexer.ComposeLemmas
import Verif.Lexer.RenderLemmas

/-! # Helper lemmas: layout of a source text -/

namespace Lol

/-! ## Pieces of a scan -/

/-- Every lexeme is one where it stands. -/
def Lexed : List Piece → Str → Prop
  | [], tail => WsOnly tail
  | p :: ps, tail => WsOnly p.gap ∧ Lexeme p.lex (layout ps tail) p.type ∧ Lexed ps tail

theorem afterWs_bytes (p : Position) (c : Char) : (p.afterWs c).bytes = p.bytes + 1 := by
  unfold Position.afterWs; split <;> rfl

theorem afterWs_line (p : Position) (c : Char) : (p.afterWs c).line = p.line + ([c].count '\n' : Nat) := by
  unfold Position.afterWs
  split
  · next h => subst h; simp
  · next h => simp [List.count_cons, h]

theorem WsOnly.cons {c : Char} {s : Str} (hc : IsWs c) (h : WsOnly s) : WsOnly (c :: s) := by
  intro d hd
  rcases List.mem_cons.1 hd with rfl | hd
  · exact hc
  · exact h d hd

theorem Scan.pieces {code : Str} {p q : Position} {ts : List Token} (h : Scan code p ts [] q) :
    ∃ ps tail, code = layout ps tail ∧ Lexed ps tail ∧ TokensAt p.bytes p.line ps ts := by
  generalize hf : ([] : Str) = fin at h
  induction h with
  | refl code p => subst hf; exact ⟨[], [], rfl, by simp [Lexed, WsOnly], trivial⟩
  | ws c code p ts code' p' hc hs ih =>
    obtain ⟨ps, tail, h1, h2, h3⟩ := ih hf
    cases ps with
    | nil =>
      cases ts with
      | nil => exact ⟨[], c :: tail, by simp [h1, layout], h2.cons hc, trivial⟩
      | cons t ts => exact absurd h3 (by simp [TokensAt])
    | cons x ps =>
      cases ts with
      | nil => exact absurd h3 (by simp [TokensAt])
      | cons t ts =>
        refine ⟨⟨c :: x.gap, x.lex, x.type⟩ :: ps, tail, by simp [h1, layout], ⟨h2.1.cons hc, h2.2⟩, ?_⟩
        simp only [TokensAt, afterWs_bytes, afterWs_line] at h3 ⊢
        have e1 : (p.bytes + (utf8Len (c :: x.gap) : Nat) : Int) = p.bytes + 1 + (utf8Len x.gap : Nat) := by
          rw [utf8Len_cons, hc.size]; omega
        have e2 : (p.bytes + (utf8Len (c :: x.gap ++ x.lex) : Nat) : Int) =
            p.bytes + 1 + (utf8Len (x.gap ++ x.lex) : Nat) := by
          rw [List.cons_append, utf8Len_cons, hc.size]; omega
        have e3 : (p.line + ((c :: x.gap).count '\n' : Nat) : Int) =
            p.line + ([c].count '\n' : Nat) + (x.gap.count '\n' : Nat) := by
          rw [← List.singleton_append, List.count_append]; omega
        rw [e1, e2, e3]
        exact h3
  | tok lex rest ty p ts code' p' hl hs ih =>
    obtain ⟨ps, tail, h1, h2, h3⟩ := ih hf
    refine ⟨⟨[], lex, ty⟩ :: ps, tail, by simp [h1, layout], ⟨by simp [WsOnly], h1 ▸ hl, h2⟩, ?_⟩
    simpa [TokensAt, Position.afterLexeme] using h3

theorem scan_gap {g : Str} (h : WsOnly g) (rest : Str) (p : Position) :
    ∃ q, Scan (g ++ rest) p [] rest q ∧ q.bytes = p.bytes + utf8Len g ∧ q.line = p.line + (g.count '\n' : Nat) := by
  induction g generalizing p with
  | nil => exact ⟨p, .refl _ _, by simp, by simp⟩
  | cons c g ih =>
    have hc := h c (by simp)
    obtain ⟨q, h1, h2, h3⟩ := ih (fun d hd => h d (by simp [hd])) (p.afterWs c)
    refine ⟨q, .ws c _ _ _ _ _ hc h1, ?_, ?_⟩
    · rw [h2, afterWs_bytes, utf8Len_cons, hc.size]; omega
    · rw [h3, afterWs_line, ← List.singleton_append (l := g), List.count_append]; omega

theorem Lexed.scan {ps : List Piece} {tail : Str} (h : Lexed ps tail) (p : Position) :
    ∃ ts q, Scan (layout ps tail) p ts [] q ∧ TokensAt p.bytes p.line ps ts := by
  induction ps generalizing p with
  | nil =>
    obtain ⟨q, h1, -⟩ := scan_gap (g := tail) h [] p
    exact ⟨[], q, by simpa [layout] using h1, trivial⟩
  | cons x ps ih =>
    obtain ⟨h1, h2, h3⟩ := h
    obtain ⟨q, g1, g2, g3⟩ := scan_gap h1 (x.lex ++ layout ps tail) p
    obtain ⟨ts, r, i1, i2⟩ := ih h3 (q.afterLexeme x.lex)
    refine ⟨_, r, g1.trans (.tok _ _ _ _ _ _ _ h2 i1), ?_⟩
    have e1 : (q.afterLexeme x.lex).bytes = p.bytes + utf8Len (x.gap ++ x.lex) := by
      rw [utf8Len_append]; simp only [Position.afterLexeme]; omega
    have e2 : (q.afterLexeme x.lex).line = p.line + (x.gap.count '\n' : Nat) := g3
    rw [e1, e2] at i2
    exact ⟨rfl, g2, e1, g3, i2⟩

theorem append_inj_utf8 {a b c d : Str} (h : a ++ b = c ++ d) (hl : utf8Len a = utf8Len c) : a = c ∧ b = d := by
  have h1 := splitAtByte_append a b
  rw [h, hl, splitAtByte_append c d] at h1
  simp at h1
  exact ⟨h1.1.symm, h1.2.symm⟩

theorem pieces_unique {o l : Int} {ps ps' : List Piece} {tail tail' : Str} {ts : List Token}
    (h : layout ps tail = layout ps' tail') (h1 : TokensAt o l ps ts) (h2 : TokensAt o l ps' ts) :
    ps = ps' ∧ tail = tail' := by
  induction ts generalizing ps ps' o l with
  | nil =>
    cases ps <;> cases ps' <;> simp only [TokensAt] at h1 h2
    exact ⟨rfl, h⟩
  | cons t ts ih =>
    cases ps with
    | nil => simp only [TokensAt] at h1
    | cons p ps =>
      cases ps' with
      | nil => simp only [TokensAt] at h2
      | cons p' ps' =>
        obtain ⟨a1, a2, a3, a4, a5⟩ := h1
        obtain ⟨b1, b2, b3, b4, b5⟩ := h2
        simp only [layout] at h
        obtain ⟨e1, e2⟩ := append_inj_utf8 h (by omega)
        rw [utf8Len_append] at a3 b3
        obtain ⟨e3, e4⟩ := append_inj_utf8 e2 (by rw [e1] at a3; omega)
        have hp : p = p' := by
          cases p; cases p'
          simp_all
        subst hp
        obtain ⟨r1, r2⟩ := ih e4 a5 b5
        exact ⟨by rw [r1], r2⟩

/-- Pieces at which the tokens of a source stand are its lexemes. -/
theorem Lexed.of_tokens {ps : List Piece} {tail : Str} {p q : Position} {ts : List Token}
    (h : Scan (layout ps tail) p ts [] q) (hat : TokensAt p.bytes p.line ps ts) : Lexed ps tail := by
  obtain ⟨ps', tail', h1, h2, h3⟩ := h.pieces
  obtain ⟨rfl, rfl⟩ := pieces_unique h1 hat h3
  exact h2

/-! ## Wider gaps -/

/-- The characters of keywords. -/
def KeywordChar (c : Char) : Prop := c = ' ' ∨ ('A' ≤ c ∧ c ≤ 'Z')

instance (c : Char) : Decidable (KeywordChar c) := by unfold KeywordChar; infer_instance

theorem Keyword.chars (k : Keyword) : ∀ c ∈ k.spelling, KeywordChar c := by
  have : ∀ k ∈ Keyword.all, ∀ c ∈ k.spelling, KeywordChar c := by decide +kernel
  exact this k k.mem_all

/-- If a keyword reaches over `v` and the lexeme `l`, a lexeme can start between them. -/
def Parted (v l : Str) : Prop := Cuts v ∨ ∀ k : Keyword, ¬ (v ++ l) <:+: k.spelling

theorem Cuts.prepend {u v : Str} (hu : Cuts u) (hv : Cuts v) : Cuts (u ++ v) := by
  induction hv with
  | nil => simpa using hu
  | space v => rw [← List.append_assoc]; exact .space _
  | keyword v j _ ih => rw [← List.append_assoc]; exact .keyword _ _ ih

theorem Joins.of_parted {k : Keyword} {v l b : Str} (h : k.spelling = v ++ (l ++ ' ' :: b)) (hp : Parted v l) :
    Joins l := by
  rcases hp with hp | hp
  · exact ⟨k, v, b, h, hp⟩
  · exact absurd ⟨[], ' ' :: b, by rw [h]; simp⟩ (hp k)

/-- Two lexemes in a row. -/
theorem Lexeme.parted {lex g lex' rest : Str} {ty : TokenType} (h : Lexeme lex (g ++ (lex' ++ rest)) ty)
    (hg : WsOnly g) (hl : ∃ c r, lex' = c :: r ∧ ¬ IsWs c) : Parted (lex ++ g) lex' := by
  obtain ⟨c, r, rfl, hc⟩ := hl
  rcases List.eq_nil_or_concat g with rfl | ⟨u, d, rfl⟩
  · have hin : ∀ {x : Char}, x ∈ lex → ¬ KeywordChar x → Parted (lex ++ []) (c :: r) := fun h1 h2 =>
      .inr fun k h3 => h2 (k.chars _ (h3.subset (by simp [h1])))
    have hkw : ∀ (k : Keyword), k.spelling = lex → Parted (lex ++ []) (c :: r) := fun k h1 =>
      .inl (by simpa [h1] using Cuts.keyword [] k .nil)
    generalize hx : [] ++ (c :: r ++ rest) = x at h
    cases h with
    | comma => exact hin (x := ',') (by simp) (by decide)
    | bang => exact hin (x := '!') (by simp) (by decide)
    | btw body rest h1 h2 =>
      subst hx
      rcases h2 with h2 | ⟨r', h2⟩
      · simp at h2
      · simp at h2
        exact absurd (.inr (.inr h2.1)) hc
    | obtw body rest h1 =>
      refine .inr fun k hk => ?_
      have h2 : ∀ k ∈ Keyword.all, ∀ n < k.spelling.length, chars!"OBTW".isPrefixOf (k.spelling.drop n) →
          k.spelling.length = 4 := by decide +kernel
      have h3 := hk.length_le
      obtain ⟨s, t, hst⟩ := hk
      have h4 := h2 k k.mem_all s.length (by rw [← hst]; simp) (by rw [← hst]; simp)
      simp at h3
      omega
    | slot => exact hin (x := '\'') (by simp) (by decide)
    | ellipsis => exact hin (x := '.') (by simp) (by decide)
    | win => exact hkw .WIN rfl
    | fail => exact hkw .FAIL rfl
    | noob => exact hkw .NOOB rfl
    | keyword k rest h1 h2 h3 h4 h5 h6 => exact hkw k rfl
    | number lex rest n h1 =>
      obtain ⟨d, r, hd, hor⟩ := h1.head
      refine hin (x := d) (by simp [hd]) ?_
      rcases hor with hor | rfl | rfl | rfl
      · rintro (rfl | ⟨hk, -⟩)
        · exact absurd hor (by decide)
        · exact absurd (Char.le_trans hk hor.2) (by decide)
      all_goals decide
    | stringClosed body after pay c rest h1 h2 h3 h4 => exact hin (x := '"') (by simp) (by decide)
    | stringOpen body h1 => exact hin (x := '"') (by simp) (by decide)
    | identifier name rest h1 h2 h3 h4 =>
      refine .inr fun k hk => ?_
      have := h3 c _ hx.symm
      rcases k.chars c (hk.subset (by simp)) with rfl | hk
      · exact hc (.inl rfl)
      · exact this (.inr (.inr hk))
    | symbol c rest h1 h2 h3 h4 h5 h6 h7 h8 h9 =>
      refine hin (x := c) (by simp) fun hk => ?_
      rcases hk with rfl | hk
      · exact h2 (.inl rfl)
      · exact h3 (.inr (.inr hk))
  · have hd := hg d (by simp)
    rcases hd with rfl | hd
    · exact .inl (by simpa using Cuts.space (lex ++ u))
    · refine .inr fun k hk => ?_
      have := k.chars d (hk.subset (by simp))
      rcases hd with rfl | rfl <;> exact absurd this (by decide)

/-- `new` is `old`, or differs from it only after a gap that is not inside a keyword. Both stand after the text
`a`. -/
inductive Widened (a : Str) : Str → Str → Prop
  | refl (s) : Widened a s s
  | gap (w g x y : Str) : WideGap g → Widened a (w ++ x) (w ++ (g ++ y))
  | space (w v l x y : Str) : ¬ Joins l → a ++ w = v ++ l → Parted v l → Widened a (w ++ x) (w ++ ' ' :: y)

theorem Widened.prepend (a g : Str) {b x y : Str} (h : Widened b x y) (hb : Parted (a ++ g) b) :
    Widened a (g ++ (b ++ x)) (g ++ (b ++ y)) := by
  cases h with
  | refl => exact .refl _
  | gap w f x y hg =>
    have := Widened.gap (a := a) (g ++ (b ++ w)) f x y hg
    simpa using this
  | space w v l x y hl hs hv =>
    have := Widened.space (a := a) (g ++ (b ++ w)) (a ++ g ++ v) l x y hl (by simp [← hs]) (by
      rcases hb with hb | hb
      · rcases hv with hv | hv
        · exact .inl (hb.prepend hv)
        · exact .inr fun k hk => hv k (List.IsInfix.trans ⟨a ++ g, [], by simp⟩ hk)
      · refine .inr fun k hk => hb k (List.IsInfix.trans ⟨[], w, ?_⟩ hk)
        simp [← hs])
    simpa using this

theorem Keyword.spelling_chars (k : Keyword) : ∀ c ∈ k.spelling, IsWs c → c = ' ' := by
  have : ∀ k ∈ Keyword.all, ∀ c ∈ k.spelling, IsWs c → c = ' ' := by decide +kernel
  exact this k k.mem_all

/-- No two characters of white space in a row, none at the end. -/
def Spaced : Str → Bool
  | [] => true
  | [c] => !decide (IsWs c)
  | c :: d :: s => (!decide (IsWs c) || !decide (IsWs d)) && Spaced (d :: s)

theorem Keyword.spaced (k : Keyword) : Spaced k.spelling = true := by
  have : ∀ k ∈ Keyword.all, Spaced k.spelling = true := by decide +kernel
  exact this k k.mem_all

theorem spaced_append {a b : Str} (h : Spaced (a ++ b) = true) : Spaced b = true := by
  induction a with
  | nil => exact h
  | cons c a ih =>
    cases hab : a ++ b with
    | nil =>
      have : b = [] := (List.append_eq_nil_iff.1 hab).2
      rw [this]; rfl
    | cons d s =>
      rw [List.cons_append, hab, Spaced, Bool.and_eq_true] at h
      exact ih (hab ▸ h.2)

/-- A keyword does not reach over a wide gap. -/
theorem keyword_before_gap {s a g y : Str} (hs : Spaced s = true) (hc : ∀ c ∈ s, IsWs c → c = ' ') (hg : WideGap g)
    (h : s <+: a ++ (g ++ y)) : s <+: a := by
  obtain ⟨r, hr⟩ := h
  rcases List.append_eq_append_iff.1 hr with ⟨u, h1, h2⟩ | ⟨u, h1, h2⟩
  · exact ⟨u, h1.symm⟩
  · obtain ⟨hw, hne, hone⟩ := hg
    cases u with
    | nil => exact ⟨[], by simpa using h1⟩
    | cons c u =>
      cases g with
      | nil => exact absurd rfl hne
      | cons d g =>
        simp only [List.cons_append, List.cons.injEq] at h2
        obtain ⟨hdc, h2⟩ := h2
        subst hdc
        have hd : d = ' ' := hc d (by rw [h1]; simp) (hw d (by simp))
        have hsp : Spaced (d :: u) = true := spaced_append (h1 ▸ hs)
        cases u with
        | nil => simp [Spaced, hw d (by simp)] at hsp
        | cons e u =>
          cases g with
          | nil => exact absurd (by rw [hd]) hone
          | cons f g =>
            simp only [List.cons_append, List.cons.injEq] at h2
            obtain ⟨hfe, -⟩ := h2
            subst hfe
            rw [Spaced, Bool.and_eq_true] at hsp
            simp [hw d (by simp), hw f (by simp)] at hsp

theorem Widened.prefix_old {s a x y : Str} (h : Widened a x y) (hs : Spaced s = true)
    (hc : ∀ c ∈ s, IsWs c → c = ' ') (hj : ∀ v l b, s = v ++ (l ++ ' ' :: b) → Parted v l → Joins l)
    (hp : s <+: a ++ y) : s <+: a ++ x := by
  cases h with
  | refl => exact hp
  | gap w g x y hg =>
    rw [← List.append_assoc] at hp
    have := keyword_before_gap hs hc hg hp
    rw [← List.append_assoc]
    exact this.trans (List.prefix_append _ _)
  | space w v l x y hl hv hpt =>
    rw [← List.append_assoc] at hp ⊢
    obtain ⟨r, hr⟩ := hp
    rcases List.append_eq_append_iff.1 hr with ⟨u, h1, h2⟩ | ⟨u, h1, h2⟩
    · exact List.IsPrefix.trans ⟨u, h1.symm⟩ (List.prefix_append _ _)
    · cases u with
      | nil => exact List.IsPrefix.trans ⟨[], by simpa using h1⟩ (List.prefix_append _ _)
      | cons c u =>
        simp only [List.cons_append, List.cons.injEq] at h2
        obtain ⟨rfl, -⟩ := h2
        exact absurd (hj v l u (by rw [h1, hv]; simp) hpt) hl

theorem Keyword.joins (k : Keyword) (v l b : Str) (h : k.spelling = v ++ (l ++ ' ' :: b)) (hp : Parted v l) :
    Joins l := .of_parted h hp

theorem joins_of_no_space {s : Str} (hs : ' ' ∉ s) (v l b : Str) (h : s = v ++ (l ++ ' ' :: b)) (_ : Parted v l) :
    Joins l := absurd (by rw [h]; simp) hs

/-- The first character after a lexeme is that of the old text, or white space. -/
theorem Widened.head {a x y : Str} (h : Widened a x y) {c : Char} {r : Str} (hy : y = c :: r) :
    (∃ r', x = c :: r') ∨ IsWs c := by
  cases h with
  | refl => exact .inl ⟨r, hy⟩
  | gap w g x y hg =>
    cases w with
    | cons d w =>
      simp at hy
      exact .inl ⟨w ++ x, by simp [hy.1]⟩
    | nil =>
      cases g with
      | nil => exact absurd rfl hg.2.1
      | cons d g =>
        simp at hy
        exact .inr (hy.1 ▸ hg.1 d (by simp))
  | space w v l x y =>
    cases w with
    | cons d w =>
      simp at hy
      exact .inl ⟨w ++ x, by simp [hy.1]⟩
    | nil =>
      simp at hy
      exact .inr (hy.1 ▸ by simp [IsWs])

theorem Widened.ne_nil {a x y : Str} (h : Widened a x y) (hx : x ≠ []) : y ≠ [] := by
  cases h with
  | refl => exact hx
  | gap w g x y hg => simp [hg.2.1]
  | space => simp

theorem Lexeme.widened {lex rest rest' : Str} {ty : TokenType} {gap : Str} (h : Lexeme lex rest ty)
    (hm : (⟨gap, lex, ty⟩ : Piece).Movable) (hw : Widened lex rest rest')
    (hcom : ∀ s, ty = .commentSingleLine s → rest' = [] ∨ ∃ r, rest' = '\n' :: r) : Lexeme lex rest' ty := by
  cases h with
  | comma => exact .comma _
  | bang => exact .bang _
  | btw body rest h1 h2 => exact .btw body _ h1 (hcom _ rfl)
  | obtw body rest h1 =>
    refine .obtw body _ ?_
    intro u v huv
    apply Classical.byContradiction
    intro hlt
    have hlt : u.length < body.length := by omega
    have h4 : (u ++ chars!"TLDR") <+: body ++ chars!"TLDR" := by
      have p1 : (u ++ chars!"TLDR") <+: (body ++ chars!"TLDR") ++ rest' :=
        ⟨v, by rw [List.append_assoc, ← huv, List.append_assoc]⟩
      exact List.prefix_of_prefix_length_le p1 (List.prefix_append _ _) (by simp; omega)
    obtain ⟨w, hw⟩ := h4
    have := h1 u (w ++ rest) (by
      rw [← List.append_assoc, ← hw]; simp)
    omega
  | slot => exact .slot _
  | ellipsis => exact .ellipsis _
  | win => exact .win _
  | fail => exact .fail _
  | noob => exact .noob _
  | keyword k rest h1 h2 h3 h4 h5 h6 =>
    exact .keyword k _ (fun j hj hp => h1 j hj (hw.prefix_old j.spaced j.spelling_chars j.joins hp)) h2 h3 h4 h5 h6
  | number lex rest n h1 =>
    have hws : ∀ c, IsWs c → ¬ IsDigit c ∧ c ≠ '.' := by
      rintro c (rfl | rfl | rfl) <;> decide
    obtain ⟨c, r, hr⟩ := List.exists_cons_of_ne_nil (hw.ne_nil (by cases h1 <;> simp))
    have hh := hw.head hr
    subst hr
    cases h1 with
    | int sgn ds d rest g1 g2 g3 g4 g5 g6 =>
      rcases hh with ⟨r', hr'⟩ | hc
      · cases hr'; exact .number _ _ _ (.int sgn ds c r g1 g2 g3 g4 g5 g6)
      · exact .number _ _ _ (.int sgn ds c r g1 g2 g3 g4 (hws c hc).1 (hws c hc).2)
    | float sgn ds es d rest x g1 g2 g3 g4 g5 g6 =>
      rcases hh with ⟨r', hr'⟩ | hc
      · cases hr'; exact .number _ _ _ (.float sgn ds es c r x g1 g2 g3 g4 g5 g6)
      · exact .number _ _ _ (.float sgn ds es c r x g1 g2 g3 g4 (hws c hc).1 g6)
  | stringClosed body after pay c rest h1 h2 h3 h4 =>
    obtain ⟨m1, m2⟩ := hm.1 pay rfl
    simp only [List.cons.injEq, List.append_cancel_left_eq, true_and, and_true] at m2
    subst m2
    have hl : pay.length = body.length := by rw [← h3, utf8Len_ascii m1]
    have hb : pay = body := by
      have := (List.cons.inj h2).2
      exact (List.append_inj this (by omega)).1.symm
    subst hb
    exact .stringClosed pay rest' pay '"' rest' h1 rfl h3 h4
  | stringOpen body h1 =>
    have := congrArg List.length (hm.1 body rfl).2
    simp at this
  | identifier name rest h1 h2 h3 h4 =>
    refine .identifier _ _ h1 h2 ?_ fun k hp => h4 k (hw.prefix_old k.spaced k.spelling_chars k.joins hp)
    intro c r hr
    rcases hw.head hr with ⟨r', hr'⟩ | hc
    · exact h3 c r' hr'
    · rcases hc with rfl | rfl | rfl <;> decide
  | symbol c rest h1 h2 h3 h4 h5 h6 h7 h8 h9 =>
    obtain ⟨m1, m2, m3, m4⟩ := hm.2 c rfl
    refine .symbol c _ h1 h2 h3 h4 h5 h6 ?_ ?_ ?_
    · exact fun hp => h7 (hw.prefix_old (a := [c]) (by decide) (by decide) (joins_of_no_space (by decide)) hp)
    · exact fun hp => h8 (hw.prefix_old (a := [c]) (by decide) (by decide) (joins_of_no_space (by decide)) hp)
    · intro lex x n hx hn
      obtain ⟨d, r, rfl, hd⟩ := hn.head
      simp at hx
      rcases hd with hd | hd | hd | hd
      · exact m1 (hx.1 ▸ hd)
      · exact m2 (hx.1.trans hd)
      · exact m3 (hx.1.trans hd)
      · exact m4 (hx.1.trans hd)

theorem NewGap.ws {prev : Option (Str × TokenType)} {g g' : Str} (h : NewGap prev g g') (hg : WsOnly g) : WsOnly g' := by
  rcases h with rfl | h
  · exact hg
  · split at h
    · exact h
    · exact h.1
    · rcases h with h | ⟨rfl, -⟩
      · exact h.1
      · simp [WsOnly, IsWs]

theorem NewGap.wide {lex : Str} {ty : TokenType} {g g' : Str} (h : NewGap (some (lex, ty)) g g') :
    g' = g ∨ WideGap g' ∨ g' = [' '] ∧ ¬ Joins lex := by
  rcases h with rfl | h
  · exact .inl rfl
  · right
    revert h
    cases ty
    all_goals first
      | exact id
      | (rintro ⟨h, r, rfl⟩; exact .inl ⟨h, by simp, by simp⟩)

theorem Respaced.widened {l : Str} {ty : TokenType} {ps ps' : List Piece} {tail tail' : Str}
    (h : Respaced (some (l, ty)) ps tail ps' tail') (hl : Lexeme l (layout ps tail) ty) (hx : Lexed ps tail) :
    Widened l (layout ps tail) (layout ps' tail') := by
  generalize hp : some (l, ty) = prev at h
  induction h generalizing l ty with
  | @nil prev tail tail' hg =>
    subst hp
    rcases hg.wide with rfl | hg | ⟨rfl, hj⟩
    · exact .refl _
    · have := Widened.gap (a := l) [] tail' tail [] hg
      simpa [layout] using this
    · exact .space [] [] l tail [] hj (by simp) (.inl .nil)
  | @cons prev g g' lex ty' ps ps' tail tail' hg hr ih =>
    subst hp
    simp only [layout]
    rcases hg.wide with rfl | hg | ⟨rfl, hj⟩
    · exact (ih hx.2.1 hx.2.2 rfl).prepend l g' (hl.parted hx.1 hx.2.1.head_not_ws)
    · exact .gap [] g' _ _ hg
    · exact .space [] [] l _ _ hj (by simp) (.inl .nil)

/-- After a single line comment the line ends in the new text too. -/
theorem Respaced.comment {s : Str} {ps ps' : List Piece} {tail tail' : Str}
    {l : Str} (h : Respaced (some (l, .commentSingleLine s)) ps tail ps' tail') (hl : ∀ p ∈ ps, p.lex ≠ [])
    (ho : layout ps tail = [] ∨ ∃ r, layout ps tail = '\n' :: r)
    (hn : ∀ p ∈ ps, ∀ c r, p.lex = c :: r → ¬ IsWs c) :
    layout ps' tail' = [] ∨ ∃ r, layout ps' tail' = '\n' :: r := by
  cases h with
  | nil hg =>
    rcases hg with rfl | ⟨-, r, rfl⟩
    · exact ho
    · exact .inr ⟨r, rfl⟩
  | @cons prev g g' lex ty' ps ps' tail tail' hg hr =>
    rcases hg with rfl | ⟨-, r, rfl⟩
    · cases g' with
      | cons c g' =>
        simp only [layout, List.cons_append] at ho ⊢
        rcases ho with ho | ⟨r, ho⟩
        · cases ho
        · cases ho; exact .inr ⟨_, rfl⟩
      | nil =>
        have h1 := hl _ List.mem_cons_self
        cases lex with
        | nil => exact absurd rfl h1
        | cons c lex =>
          simp only [layout, List.nil_append, List.cons_append] at ho
          rcases ho with ho | ⟨r, ho⟩
          · cases ho
          · cases ho
            exact absurd (by decide) (hn _ List.mem_cons_self '\n' lex rfl)
    · exact .inr ⟨_, rfl⟩

theorem Lexed.lexemes {ps : List Piece} {tail : Str} (h : Lexed ps tail) :
    ∀ p ∈ ps, p.lex ≠ [] ∧ ∀ c r, p.lex = c :: r → ¬ IsWs c := by
  induction ps with
  | nil => simp
  | cons x ps ih =>
    intro p hp
    rcases List.mem_cons.1 hp with rfl | hp
    · refine ⟨h.2.1.ne_nil, fun c r hr => ?_⟩
      obtain ⟨c', r', h1, h2⟩ := h.2.1.head_not_ws
      rw [hr] at h1
      cases h1
      exact h2
    · exact ih h.2.2 p hp

theorem Lexed.respaced {prev : Option (Str × TokenType)} {ps ps' : List Piece} {tail tail' : Str}
    (h : Respaced prev ps tail ps' tail') (hl : Lexed ps tail) (hm : ∀ p ∈ ps, p.Movable) : Lexed ps' tail' := by
  induction h with
  | nil hg => exact hg.ws hl
  | @cons prev g g' lex ty ps ps' tail tail' hg hr ih =>
    obtain ⟨h1, h2, h3⟩ := hl
    refine ⟨hg.ws h1, ?_, ih h3 fun p hp => hm p (by simp [hp])⟩
    refine Lexeme.widened (gap := g) h2 (hm _ (by simp)) (hr.widened h2 h3) ?_
    rintro s rfl
    have hlx := h3.lexemes
    refine Respaced.comment hr (fun p hp => (hlx p hp).1) ?_ fun p hp => (hlx p hp).2
    have h2' : Lexeme lex (layout ps tail) (.commentSingleLine s) := h2
    generalize layout ps tail = rest at h2'
    cases h2' with
    | btw body rest h5 h6 => exact h6

end Lol
