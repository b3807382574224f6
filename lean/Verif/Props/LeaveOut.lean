import Verif.Lexer.BlankLemmas
import Verif.Props.OptionalWords
import Verif.Props.Rename
import Verif.Props.EditLine

/-! # Lexemes left out of a source text (C100) -/

namespace Lol

/-! ## Lemmas -/

/-- Where a token stands in the division, whatever follows it. -/
private theorem split_before (pre : List Token) (x : Token) (hx : x.isSeparator = false) :
    (∀ line, ∃ A a, ∀ rest, (splitFrom (pre ++ x :: rest) line).all =
        A ++ (a ++ x :: (splitFrom rest x.range.start.line).cur) :: (splitFrom rest x.range.start.line).later) ∧
    (∃ A a, ∀ rest, splitGap (pre ++ x :: rest) =
        A ++ (a ++ x :: (splitFrom rest x.range.start.line).cur) :: (splitFrom rest x.range.start.line).later) := by
  induction pre with
  | nil =>
    simp only [Token.isSeparator, decide_eq_false_iff_not, not_or] at hx
    refine ⟨fun line => ?_, [], [], fun rest => ?_⟩
    · by_cases hl : x.range.start.line = line
      · subst hl
        exact ⟨[], [], fun rest => by simp [splitFrom, hx, Stmts.push, Stmts.all]⟩
      · exact ⟨[[]], [], fun rest => by simp [splitFrom, hx, Stmts.push, Stmts.all, hl]⟩
    · simp [splitGap, hx, Stmts.push, Stmts.all]
  | cons t pre ih =>
    obtain ⟨ih1, A', a', ih2⟩ := ih
    have hfirst : ∀ l rest, firstLine (pre ++ x :: rest) l = firstLine (pre ++ [x]) l := by
      intro l rest
      cases pre <;> rfl
    have push : ∀ (A : List (List Token)) (a : List Token), ∃ A' a', ∀ (s : Stmts) c l, s.all = A ++ (a ++ c) :: l →
        (s.push t).all = A' ++ (a' ++ c) :: l := by
      intro A a
      cases A with
      | nil =>
        refine ⟨[], t :: a, fun s c l h => ?_⟩
        simp only [Stmts.all, List.nil_append, List.cons.injEq] at h
        simp [Stmts.push, Stmts.all, h.1, h.2]
      | cons b A =>
        refine ⟨(t :: b) :: A, a, fun s c l h => ?_⟩
        simp only [Stmts.all, List.cons_append, List.cons.injEq] at h
        simp [Stmts.push, Stmts.all, h.1, h.2]
    by_cases hc : t.tokenType = .comma
    · refine ⟨fun line => ⟨[] :: A', a', fun rest => ?_⟩, A', a', fun rest => ?_⟩
      · simp [splitFrom, hc, Stmts.all, ih2]
      · simp [splitGap, hc, ih2]
    · by_cases he : t.tokenType = .ellipsis
      · refine ⟨fun line => ?_, ?_⟩
        · by_cases hl : t.range.start.line = line
          · obtain ⟨A, a, h1⟩ := ih1 (firstLine (pre ++ [x]) line)
            refine ⟨A, a, fun rest => ?_⟩
            simp only [List.cons_append, splitFrom, if_neg hc, if_pos he, if_pos hl, hfirst, h1]
          · obtain ⟨A, a, h1⟩ := ih1 (firstLine (pre ++ [x]) t.range.start.line)
            refine ⟨[] :: A, a, fun rest => ?_⟩
            simp only [List.cons_append, splitFrom, if_neg hc, if_pos he, if_neg hl, hfirst]
            rw [Stmts.all, h1]
        · obtain ⟨A, a, h1⟩ := ih1 (firstLine (pre ++ [x]) t.range.start.line)
          exact ⟨A, a, fun rest => by simp only [List.cons_append, splitGap, if_neg hc, if_pos he, hfirst, h1]⟩
      · obtain ⟨A, a, h1⟩ := ih1 t.range.start.line
        obtain ⟨A2, a2, h3⟩ := push A a
        refine ⟨fun line => ?_, ?_⟩
        · by_cases hl : t.range.start.line = line
          · refine ⟨A2, a2, fun rest => ?_⟩
            simp only [List.cons_append, splitFrom, if_neg hc, if_neg he, if_pos hl]
            rw [← hl]
            exact h3 _ _ _ (h1 rest)
          · refine ⟨[] :: A2, a2, fun rest => ?_⟩
            simp only [List.cons_append, splitFrom, if_neg hc, if_neg he, if_neg hl]
            rw [Stmts.all, h3 _ _ _ (h1 rest)]
        · refine ⟨A2, a2, fun rest => ?_⟩
          simp only [List.cons_append, splitGap, if_neg hc, if_neg he]
          exact h3 _ _ _ (h1 rest)

/-- A token on the line of the token before it can be left out of its statement. -/
private theorem split_without {ta tb : List Token} {u t : Token} (hu : u.isSeparator = false)
    (ht : t.isSeparator = false) (hl : t.range.start.line = u.range.start.line) :
    ∃ A a B, (split (ta ++ u :: t :: tb)).all = A ++ (a ++ u :: t :: (splitFrom tb t.range.start.line).cur) :: B ∧
      (split (ta ++ u :: tb)).all = A ++ (a ++ u :: (splitFrom tb t.range.start.line).cur) :: B := by
  have hfirst : firstLine (ta ++ u :: t :: tb) 0 = firstLine (ta ++ u :: tb) 0 := by cases ta <;> rfl
  obtain ⟨A, a, h⟩ := (split_before ta u hu).1 (firstLine (ta ++ u :: tb) 0)
  have h1 := h (t :: tb)
  have h2 := h tb
  simp only [Token.isSeparator, decide_eq_false_iff_not, not_or] at ht
  have h3 : splitFrom (t :: tb) u.range.start.line = (splitFrom tb u.range.start.line).push t := by
    simp [splitFrom, ht, hl]
  rw [h3] at h1
  refine ⟨A, a, (splitFrom tb u.range.start.line).later, ?_, ?_⟩
  · rw [split, hfirst, h1, hl]
    rfl
  · rw [split, h2, hl]

private theorem mem_stmts {ts st : List Token} (h : st ∈ (split ts).all) : ∀ v ∈ st, v ∈ ts := by
  intro v hv
  have h1 := (split_flatten_aux ts).1 (firstLine ts 0)
  have h2 : v ∈ content ts := by
    rw [← h1]
    exact List.mem_flatten.2 ⟨st, h, hv⟩
  exact (List.mem_filter.1 h2).1

private theorem dropAn_none {p : Token → Bool} : {st : List Token} → (∀ v ∈ st, p v = false) → dropAn p st = st
  | [], _ => rfl
  | t :: st, h => by
    rw [dropAn, if_neg (fun hc => by simp [h t (by simp)] at hc), dropAn_none fun v hv => h v (by simp [hv])]

private theorem dropAn_one {p : Token → Bool} {t : Token} {b : List Token} (ht : t.Is .AN) (hp : p t = true)
    (hb : ∀ v ∈ b, p v = false) (hy : ¬ BeginsWithYr b) :
    {a : List Token} → (∀ v ∈ a, p v = false) → dropAn p (a ++ t :: b) = a ++ b
  | [], _ => by
    rw [List.nil_append, dropAn, if_pos ⟨ht, hp, hy⟩, dropAn_none hb]
    rfl
  | v :: a, h => by
    rw [List.cons_append, dropAn, if_neg (fun hc => by simp [h v (by simp)] at hc),
      dropAn_one ht hp hb hy fun v hv => h v (by simp [hv])]
    rfl

private theorem dropMkay_none {p : Token → Bool} {st : List Token} (h : ∀ v ∈ st, p v = false) : dropMkay p st = st := by
  cases st with
  | nil => rfl
  | cons t r =>
    rw [dropMkay]
    split
    · next m hm =>
      rw [if_neg (fun hc => by simp [h m (List.mem_of_getLast? hm)] at hc)]
    · rfl

private theorem dropMkay_one {p : Token → Bool} {t u : Token} {a : List Token} (ht : t.Is .MKAY) (hp : p t = true)
    (h1 : ∀ v r, a ++ [u] = v :: r → ¬ v.Is .I_IZ ∧ ¬ v.Is .HAI) : dropMkay p (a ++ [u, t]) = a ++ [u] := by
  have e : a ++ [u, t] = (a ++ [u]) ++ [t] := by simp
  rw [e]
  cases h : a ++ [u] with
  | nil => simp at h
  | cons v r =>
    obtain ⟨h2, h3⟩ := h1 v r h
    have hl : (v :: (r ++ [t])).getLast? = some t := by
      have : v :: (r ++ [t]) = (v :: r) ++ [t] := rfl
      rw [this, List.getLast?_append]
      rfl
    rw [List.cons_append, dropMkay, hl]
    simp only [ht, hp, h2, h3, and_self, not_false_eq_true, if_true]
    have : v :: (r ++ [t]) = (v :: r) ++ [t] := rfl
    rw [this, List.dropLast_concat]

/-- Tokens start where their lexemes do. -/
private theorem TokensAt.between {o l : Int} {ps : List Piece} {ts : List Token} (h : TokensAt o l ps ts)
    (hl : ∀ p ∈ ps, p.lex ≠ []) :
    ∀ t ∈ ts, o ≤ t.range.start.bytes ∧ t.range.start.bytes < o + utf8Len (layout ps []) := by
  induction ps generalizing o l ts with
  | nil => cases ts <;> simp_all [TokensAt]
  | cons p ps ih =>
    cases ts with
    | nil => simp [TokensAt] at h
    | cons t ts =>
      obtain ⟨-, h2, -, -, h5⟩ := h
      have hpos : 0 < utf8Len p.lex := by
        obtain ⟨c, r, hc⟩ := List.exists_cons_of_ne_nil (hl p (by simp))
        rw [hc, utf8Len_cons]
        have := Char.utf8Size_pos c
        omega
      intro v hv
      simp only [layout, utf8Len_append] at h5 ⊢
      rcases List.mem_cons.1 hv with rfl | hv
      · omega
      · have := ih h5 (fun p hp => hl p (by simp [hp])) v hv
        omega

/-- The line of the last token. -/
private def endLine : List Token → Int → Int
  | [], l => l
  | t :: ts, _ => endLine ts t.range.start.line

private theorem endLine_concat (u : Token) : (ts : List Token) → (l : Int) → endLine (ts ++ [u]) l = u.range.start.line
  | [], _ => rfl
  | t :: ts, _ => endLine_concat u ts t.range.start.line

private theorem TokensAt.append_inv' {o l : Int} {pa pb : List Piece} {ts : List Token} (h : TokensAt o l (pa ++ pb) ts) :
    ∃ ta tb l', ts = ta ++ tb ∧ TokensAt o l pa ta ∧ TokensAt (o + utf8Len (layout pa [])) l' pb tb ∧
      l' = endLine ta l := by
  induction pa generalizing o l ts with
  | nil => exact ⟨[], ts, l, rfl, trivial, by simpa [layout] using h, rfl⟩
  | cons p pa ih =>
    cases ts with
    | nil => simp [TokensAt] at h
    | cons t ts =>
      obtain ⟨h1, h2, h3, h4, h5⟩ := h
      obtain ⟨ta, tb, l', rfl, i1, i2, i3⟩ := ih h5
      refine ⟨t :: ta, tb, l', rfl, ⟨h1, h2, h3, h4, i1⟩, ?_, ?_⟩
      · have e : o + (utf8Len (layout (p :: pa) []) : Int) =
            o + utf8Len (p.gap ++ p.lex) + utf8Len (layout pa []) := by
          simp only [layout, utf8Len_append]; omega
        rw [e]
        exact i2
      · rw [i3, endLine, h4]

private theorem steps_lines : {o o' l : Int} → {pa pb : List Piece} → {g : Str} → {ta tb ts' : List Token} → {o2 l2 : Int} →
    TokensAt o l pa ta → TokensAt o2 l2 pb tb →
    l2 = endLine ta l → '\n' ∉ g →
    TokensAt o' l (pa ++ closeUp g pb) ts' → SameSteps l l (ta ++ tb) ts'
  | o, o', l, [], pb, g, ta, tb, ts', o2, l2, h1, h2, h3, hg, h => by
    cases ta with
    | cons => simp [TokensAt] at h1
    | nil =>
      simp only [endLine] at h3
      subst h3
      have same : ∀ {ps : List Piece} {us vs : List Token} {o o' l : Int}, TokensAt o l ps us → TokensAt o' l ps vs →
          SameSteps l l us vs := by
        intro ps
        induction ps with
        | nil => intro us vs o o' l a b; cases us <;> cases vs <;> simp_all [TokensAt, SameSteps]
        | cons p ps ih =>
          intro us vs o o' l a b
          cases us with
          | nil => simp [TokensAt] at a
          | cons u us =>
            cases vs with
            | nil => simp [TokensAt] at b
            | cons v vs =>
              obtain ⟨a1, -, -, a4, a5⟩ := a
              obtain ⟨b1, -, -, b4, b5⟩ := b
              refine ⟨a1.trans b1.symm, by rw [a4, b4], ?_⟩
              rw [a4, b4]
              exact ih a5 b5
      cases pb with
      | nil => cases tb <;> cases ts' <;> simp_all [TokensAt, SameSteps, closeUp]
      | cons q pb =>
        cases tb with
        | nil => simp [TokensAt] at h2
        | cons u us =>
          cases ts' with
          | nil => simp [TokensAt, closeUp] at h
          | cons v vs =>
            obtain ⟨a1, -, -, a4, a5⟩ := h2
            obtain ⟨b1, -, -, b4, b5⟩ := h
            have hcount : (g ++ q.gap).count '\n' = q.gap.count '\n' := by
              rw [List.count_append, List.count_eq_zero.2 hg, Nat.zero_add]
            have b4 : v.range.start.line = l2 + ((g ++ q.gap).count '\n' : Nat) := b4
            have b5 : TokensAt _ (l2 + ((g ++ q.gap).count '\n' : Nat)) pb vs := b5
            rw [hcount] at b4 b5
            refine ⟨a1.trans b1.symm, by rw [a4, b4], ?_⟩
            rw [a4, b4]
            exact same a5 b5
  | o, o', l, p :: pa, pb, g, ta, tb, ts', o2, l2, h1, h2, h3, hg, h => by
    cases ta with
    | nil => simp [TokensAt] at h1
    | cons t ta =>
      cases ts' with
      | nil => simp [TokensAt] at h
      | cons v vs =>
        obtain ⟨a1, -, -, a4, a5⟩ := h1
        obtain ⟨b1, -, -, b4, b5⟩ := h
        refine ⟨a1.trans b1.symm, by rw [a4, b4], ?_⟩
        rw [a4, b4]
        refine steps_lines (l2 := l2) a5 h2 ?_ hg b5
        rw [h3, endLine, a4]

/-! ## C100 -/

/-- **C100** A lexeme that has white space before it, and after it or nothing, can be left out of a source text (the
white space stays): the tokens are the same without its token. -/
theorem C100_tokens {as bs : List Piece} {p : Piece} {tail : Str} {ts : List Token}
    (h : tokenize (layout (as ++ p :: bs) tail) = .ok (.ok ts)) (hat : TokensAt 0 1 (as ++ p :: bs) ts)
    (hg : p.gap ≠ []) (ho : layout bs tail = [] ∨ ∃ c r, layout bs tail = c :: r ∧ IsWs c)
    (hs : ∀ q ∈ as, ∀ s, q.type = .value (.string s) → ∀ c ∈ s, IsAscii c) :
    ∃ ts', tokenize (layout as (p.gap ++ layout bs tail)) = .ok (.ok ts') ∧
      TokensAt 0 1 (as ++ closeUp p.gap bs) ts' ∧
      ts'.map (·.tokenType) = as.map (·.type) ++ bs.map (·.type) := by
  obtain ⟨q, hq⟩ := tokenize_scan h
  have hl := (Lexed.of_tokens hq hat).blanked hg ho hs
  obtain ⟨ts', q', h1, h2⟩ := hl.scan .first
  rw [layout_append, layout_closeUp, ← layout_tail] at h1
  refine ⟨ts', ?_, h2, ?_⟩
  · rw [tokenize_eq_run, run_scan h1, run_nil]
    simp [prepend]
  · rw [h2.types]
    cases bs <;> simp [closeUp]

-- A keyword between spaces is left out; the names `DIFF` and `OF` do not become the keyword
-- `DIFF OF`, for there are two spaces between them.
example : (∃ ts, tokenize (layout [⟨[], chars!"DIFF", .identifier chars!"DIFF"⟩, ⟨chars!" ", chars!"AN", .keyword .AN⟩,
      ⟨chars!" ", chars!"OF", .identifier chars!"OF"⟩] []) = .ok (.ok ts) ∧
    TokensAt 0 1 [⟨[], chars!"DIFF", .identifier chars!"DIFF"⟩, ⟨chars!" ", chars!"AN", .keyword .AN⟩,
      ⟨chars!" ", chars!"OF", .identifier chars!"OF"⟩] ts) ∧
    ∃ ts, tokenize chars!"DIFF  OF" = .ok (.ok ts) ∧
      ts.map (·.tokenType) = [.identifier chars!"DIFF", .identifier chars!"OF"] := by
  refine ⟨⟨_, rfl, ?_⟩, _, rfl, by decide +kernel⟩
  simp only [TokensAt]
  decide +kernel

/-- **C100** The white space has to stay: a single space can join the words on both sides to a keyword. -/
theorem C100_space_stays : ∃ ts us, tokenize chars!"DIFF AN OF" = .ok (.ok ts) ∧ tokenize chars!"DIFF OF" = .ok (.ok us) ∧
    ts.map (·.tokenType) = [.identifier chars!"DIFF", .keyword .AN, .identifier chars!"OF"] ∧
    us.map (·.tokenType) = [.keyword .DIFF_OF] := by
  refine ⟨_, _, rfl, rfl, ?_⟩
  decide +kernel

/-- What C100_an and C100_mkay have in common. -/
private theorem without {as bs : List Piece} {p : Piece} {tail : Str} {ts : List Token}
    (h : tokenize (layout (as ++ p :: bs) tail) = .ok (.ok ts)) (hat : TokensAt 0 1 (as ++ p :: bs) ts)
    (hg : p.gap ≠ []) (hn : '\n' ∉ p.gap) (ho : layout bs tail = [] ∨ ∃ c r, layout bs tail = c :: r ∧ IsWs c)
    (hs : ∀ q ∈ as, ∀ s, q.type = .value (.string s) → ∀ c ∈ s, IsAscii c)
    {k : Keyword} (hk : p.type = .keyword k) (hq : ∃ q, as.getLast? = some q ∧ q.type ≠ .comma ∧ q.type ≠ .ellipsis) :
    ∃ ts' t tb A a u B, tokenize (layout as (p.gap ++ layout bs tail)) = .ok (.ok ts') ∧ t.tokenType = .keyword k ∧
      t.range.start.bytes = (utf8Len (layout as p.gap) : Int) ∧
      (∀ st ∈ A ++ B ++ [a ++ u :: (splitFrom tb t.range.start.line).cur], ∀ v ∈ st,
        v.range.start.bytes ≠ (utf8Len (layout as p.gap) : Int)) ∧
      (∃ o, TokensAt o t.range.start.line bs tb) ∧
      (split ts).all = A ++ (a ++ u :: t :: (splitFrom tb t.range.start.line).cur) :: B ∧
      (split ts').all.map (List.map (·.tokenType)) =
        (A ++ (a ++ u :: (splitFrom tb t.range.start.line).cur) :: B).map (List.map (·.tokenType)) := by
  obtain ⟨ts', h1, h2, -⟩ := C100_tokens h hat hg ho hs
  obtain ⟨q0, hq0⟩ := tokenize_scan h
  have hlex : ∀ p' ∈ as ++ p :: bs, p'.lex ≠ [] := fun p' hp' => ((Lexed.of_tokens hq0 hat).lexemes p' hp').1
  obtain ⟨ta, tb, l', rfl, g1, g2, g3⟩ := hat.append_inv'
  cases tb with
  | nil => simp [TokensAt] at g2
  | cons t tb =>
    obtain ⟨t1, t2, t3, t4, t5⟩ := g2
    rw [List.count_eq_zero.2 hn] at t4 t5
    simp only [Int.natCast_zero, Int.add_zero] at t4 t5
    have hta : ∃ ta' u, ta = ta' ++ [u] ∧ u.isSeparator = false := by
      obtain ⟨q, hq1, hq2, hq3⟩ := hq
      obtain ⟨as', rfl⟩ : ∃ as', as = as' ++ [q] := by
        rcases List.eq_nil_or_concat as with rfl | ⟨as', x, rfl⟩
        · cases hq1
        · simp at hq1
          exact ⟨as', by simp [hq1]⟩
      have := g1.types
      rcases List.eq_nil_or_concat ta with rfl | ⟨ta', u, rfl⟩
      · simp at this
      · simp only [List.concat_eq_append, List.map_append, List.map_cons, List.map_nil] at this ⊢
        obtain ⟨-, this⟩ := List.append_inj' this rfl
        simp only [List.cons.injEq, and_true] at this
        exact ⟨ta', u, rfl, isSeparator_false (by rw [this]; exact hq2) (by rw [this]; exact hq3)⟩
    obtain ⟨ta', u, rfl, hu⟩ := hta
    rw [endLine_concat] at g3
    have hline : t.range.start.line = u.range.start.line := by rw [t4, g3]
    have ht : t.isSeparator = false := isSeparator_false (by rw [t1, hk]; simp) (by rw [t1, hk]; simp)
    obtain ⟨A, a, B, e1, e2⟩ := split_without (ta := ta') (tb := tb) hu ht hline
    have hto : t.range.start.bytes = utf8Len (layout as p.gap) := by
      rw [t2, layout_tail as p.gap, utf8Len_append]
      omega
    refine ⟨ts', t, tb, A, a, u, B, h1, t1.trans hk, hto, ?_, ⟨_, t4 ▸ t5⟩, ?_, ?_⟩
    · intro st hst v hv
      have hv' : v ∈ ta' ++ u :: tb := by
        refine mem_stmts (st := st) ?_ v hv
        rw [e2]
        simp only [List.mem_append, List.mem_cons, List.not_mem_nil, or_false] at hst ⊢
        rcases hst with (hst | hst) | hst
        · exact .inl hst
        · exact .inr (.inr hst)
        · exact .inr (.inl hst)
      have hb1 := g1.between fun p' hp' => hlex p' (by simp [hp'])
      have hb2 := t5.between fun p' hp' => hlex p' (by simp [hp'])
      have e : (utf8Len (layout as p.gap) : Int) = utf8Len (layout as []) + utf8Len p.gap := by
        rw [layout_tail as p.gap, utf8Len_append]; omega
      have hpos : 0 < utf8Len p.lex := by
        obtain ⟨c, r, hc⟩ := List.exists_cons_of_ne_nil (hlex p (by simp))
        rw [hc, utf8Len_cons]
        have := Char.utf8Size_pos c
        omega
      have hmem : v ∈ ta' ++ [u] ∨ v ∈ tb := by
        simp only [List.mem_append, List.mem_cons, List.not_mem_nil, or_false] at hv' ⊢
        rcases hv' with hv' | hv' | hv'
        · exact .inl (.inl hv')
        · exact .inl (.inr hv')
        · exact .inr hv'
      rcases hmem with hmem | hmem
      · have := hb1 v hmem
        omega
      · have := hb2 v hmem
        rw [utf8Len_append] at this
        omega
    · have : ta' ++ [u] ++ t :: tb = ta' ++ u :: t :: tb := by simp
      rw [this, e1]
    · have hsteps := steps_lines (g := p.gap) g1 t5 (by rw [endLine_concat, g3]) hn h2
      have h5 := (split_steps _ _ _ _ (hsteps.first 0 0)).1
      rw [← e2]
      have : ta' ++ [u] ++ tb = ta' ++ u :: tb := by simp
      rw [this] at h5
      exact h5.symm

private theorem types_unplaced {x y : List (List Token)} (h : x.map (List.map (·.tokenType)) = y.map (List.map (·.tokenType))) :
    x.map (List.map Token.unplaced) = y.map (List.map Token.unplaced) := by
  have hm : ∀ z : List (List Token), z.map (List.map Token.unplaced) =
      (z.map (List.map (·.tokenType))).map (List.map fun ty => (⟨ty, ⟨⟨0, 0, 0, 0⟩, ⟨0, 0, 0, 0⟩⟩⟩ : Token)) := by
    intro z
    simp [Token.unplaced]
  rw [hm, hm, h]

private theorem retold {code' : Str} {ts' : List Token} {nodes' x : Block}
    (h' : tokenize code' = .ok (.ok ts')) (hp : parse ts' = .ok nodes')
    (he : errorFreeBlock nodes') (hx : mapBlock Token.unplaced nodes' = mapBlock Token.unplaced x) :
    ∃ nodes', tokenizeAndParse code' = .ok (.ok nodes') ∧ errorFreeBlock nodes' ∧
      mapBlock Token.unplaced nodes' = mapBlock Token.unplaced x := by
  refine ⟨nodes', ?_, he, hx⟩
  unfold tokenizeAndParse
  rw [h']
  show Out.bind (parse ts') _ = _
  rw [hp]
  rfl

/-- **C100** An `AN` that stands on the line of the lexeme before it, between white space, can be left out of the source
text of a program without errors, unless a `YR` or an ellipsis follows: the new program has no errors either, and up to
positions the tree is the same without this `AN`. -/
theorem C100_an {as bs : List Piece} {p : Piece} {tail : Str} {ts : List Token} {nodes : Block}
    (h : tokenize (layout (as ++ p :: bs) tail) = .ok (.ok ts)) (hat : TokensAt 0 1 (as ++ p :: bs) ts)
    (hp : p.type = .keyword .AN) (hg : p.gap ≠ []) (hn : '\n' ∉ p.gap)
    (ho : layout bs tail = [] ∨ ∃ c r, layout bs tail = c :: r ∧ IsWs c)
    (hs : ∀ q ∈ as, ∀ s, q.type = .value (.string s) → ∀ c ∈ s, IsAscii c)
    (hq : ∃ q, as.getLast? = some q ∧ q.type ≠ .comma ∧ q.type ≠ .ellipsis)
    (hy : ∀ q, bs.head? = some q → q.type ≠ .keyword .YR ∧ q.type ≠ .ellipsis)
    (hx : tokenizeAndParse (layout (as ++ p :: bs) tail) = .ok (.ok nodes)) (he : errorFreeBlock nodes) :
    ∃ nodes', tokenizeAndParse (layout as (p.gap ++ layout bs tail)) = .ok (.ok nodes') ∧ errorFreeBlock nodes' ∧
      mapBlock Token.unplaced nodes' = mapBlock Token.unplaced
        (retouchBlock (withoutAn fun t => t.range.start.bytes = (utf8Len (layout as p.gap) : Int)) nodes) := by
  obtain ⟨ts', t, tb, A, a, u, B, h1, h2, h3, h4, ⟨o, h5⟩, h6, h7⟩ := without h hat hg hn ho hs hp hq
  generalize hP : (fun t : Token => decide (t.range.start.bytes = (utf8Len (layout as p.gap) : Int))) = P
  have hf : ∀ st ∈ A ++ B ++ [a ++ u :: (splitFrom tb t.range.start.line).cur], ∀ v ∈ st, P v = false := by
    intro st hst v hv
    rw [← hP]
    simpa using h4 st hst v hv
  have ht : P t = true := by rw [← hP]; simpa using h3
  have hyr : ¬ BeginsWithYr (splitFrom tb t.range.start.line).cur := by
    rintro ⟨v, r, e1, e2⟩
    cases tb with
    | nil => simp [splitFrom] at e1
    | cons w tb =>
      cases bs with
      | nil => simp [TokensAt] at h5
      | cons q bs =>
        have hw : w.tokenType = q.type := h5.1
        obtain ⟨y1, y2⟩ := hy q rfl
        rw [splitFrom] at e1
        split at e1
        · cases e1
        · split at e1
          · rw [if_neg (by rw [hw]; exact y2)] at e1
            cases e1
            exact y1 (hw ▸ e2)
          · cases e1
  have hmem : ∀ {st}, st ∈ A ∨ st ∈ B → ∀ v ∈ st, P v = false := fun hst => hf _ (by
    simp only [List.mem_append]
    rcases hst with hst | hst
    · exact .inl (.inl hst)
    · exact .inl (.inr hst))
  have hmid := hf (a ++ u :: (splitFrom tb t.range.start.line).cur) (by simp)
  have hd : ((split ts).all.map (dropAn P)) = A ++ (a ++ u :: (splitFrom tb t.range.start.line).cur) :: B := by
    rw [h6, List.map_append, List.map_cons]
    congr 1
    · exact (List.map_congr_left fun st hst => dropAn_none (hmem (.inl hst))).trans (List.map_id _)
    · congr 1
      · have := dropAn_one (p := P) (t := t) (b := (splitFrom tb t.range.start.line).cur) (a := a ++ [u]) h2 ht
          (fun v hv => hmid v (by simp [hv])) hyr (fun v hv => hmid v (by
            simp only [List.mem_append, List.mem_cons, List.not_mem_nil, or_false] at hv ⊢
            rcases hv with hv | hv
            · exact .inl hv
            · exact .inr (.inl hv)))
        simpa using this
      · exact (List.map_congr_left fun st hst => dropAn_none (hmem (.inr hst))).trans (List.map_id _)
  rw [← hd] at h7
  have h8 := types_unplaced h7
  rw [List.map_map] at h8
  obtain ⟨nodes', g1, g2, g3⟩ := C96_an P (tokens' := ts') (parse_of_tokenizeAndParse h hx) he
    (stmts_each (f := List.map Token.unplaced ∘ dropAn P) (g := List.map Token.unplaced) rfl rfl h8)
  exact retold h1 g1 g2 g3

-- Before and after the `AN` of `ALL OF x AN O` (for the examples).
private def anBefore : List Piece :=
  [⟨[], chars!"ALL OF", .keyword .ALL_OF⟩, ⟨chars!" ", chars!"x", .identifier chars!"x"⟩]

private def anPiece : Piece := ⟨chars!" ", chars!"AN", .keyword .AN⟩

private def anAfter : List Piece :=
  [⟨chars!" ", chars!"O", .identifier chars!"O"⟩, ⟨chars!" ", chars!"MKAY", .keyword .MKAY⟩,
    ⟨chars!"\n", chars!"GTFO", .keyword .GTFO⟩]

example : layout (anBefore ++ anPiece :: anAfter) [] = chars!"ALL OF x AN O MKAY\nGTFO" ∧
    layout anBefore (anPiece.gap ++ layout anAfter []) = chars!"ALL OF x  O MKAY\nGTFO" := by
  decide +kernel

set_option maxRecDepth 8000 in
example : ∃ ts nodes, tokenize (layout (anBefore ++ anPiece :: anAfter) []) = .ok (.ok ts) ∧
    TokensAt 0 1 (anBefore ++ anPiece :: anAfter) ts ∧ anPiece.gap ≠ [] ∧ '\n' ∉ anPiece.gap ∧
    (∃ c r, layout anAfter [] = c :: r ∧ IsWs c) ∧
    (∀ q ∈ anBefore, ∀ s, q.type = .value (.string s) → ∀ c ∈ s, IsAscii c) ∧
    (∃ q, anBefore.getLast? = some q ∧ q.type ≠ .comma ∧ q.type ≠ .ellipsis) ∧
    (∀ q, anAfter.head? = some q → q.type ≠ .keyword .YR ∧ q.type ≠ .ellipsis) ∧
    tokenizeAndParse (layout (anBefore ++ anPiece :: anAfter) []) = .ok (.ok nodes) ∧ errorFreeBlock nodes := by
  refine ⟨_, _, rfl, ?_, by decide, by decide, ⟨' ', _, rfl, .inl rfl⟩, ?_, ⟨_, rfl, by simp, by simp⟩, ?_, rfl, ?_⟩
  · simp only [anBefore, anPiece, anAfter, List.cons_append, List.nil_append, TokensAt]
    decide +kernel
  · intro q hq s hs
    simp only [anBefore, List.mem_cons, List.not_mem_nil, or_false] at hq
    rcases hq with rfl | rfl <;> cases hs
  · rintro q ⟨⟩
    simp
  · simp [errorFreeBlock, Node.ErrorFree]

/-- **C100** A `MKAY` at the end of a statement that stands on the line of the lexeme before it, between white space, can
be left out of the source text of a program without errors, unless it is that of `I IZ` or belongs to the version after
`HAI`: the new program has no errors either, and up to positions the tree is the same without this `MKAY`. -/
theorem C100_mkay {as bs : List Piece} {p : Piece} {tail : Str} {ts : List Token} {nodes : Block}
    (h : tokenize (layout (as ++ p :: bs) tail) = .ok (.ok ts)) (hat : TokensAt 0 1 (as ++ p :: bs) ts)
    (hp : p.type = .keyword .MKAY) (hg : p.gap ≠ []) (hn : '\n' ∉ p.gap)
    (ho : layout bs tail = [] ∨ ∃ c r, layout bs tail = c :: r ∧ IsWs c)
    (hs : ∀ q ∈ as, ∀ s, q.type = .value (.string s) → ∀ c ∈ s, IsAscii c)
    (hq : ∃ q, as.getLast? = some q ∧ q.type ≠ .comma ∧ q.type ≠ .ellipsis)
    (hl : ∀ q, bs.head? = some q → '\n' ∈ q.gap ∨ q.type = .comma)
    (hi : ∀ st ∈ (split ts).all, ∀ v r, st = v :: r →
      (∃ t ∈ r, t.range.start.bytes = (utf8Len (layout as p.gap) : Int)) → ¬ v.Is .I_IZ ∧ ¬ v.Is .HAI)
    (hx : tokenizeAndParse (layout (as ++ p :: bs) tail) = .ok (.ok nodes)) (he : errorFreeBlock nodes) :
    ∃ nodes', tokenizeAndParse (layout as (p.gap ++ layout bs tail)) = .ok (.ok nodes') ∧ errorFreeBlock nodes' ∧
      mapBlock Token.unplaced nodes' = mapBlock Token.unplaced
        (retouchBlock (withoutMkay fun t => t.range.start.bytes = (utf8Len (layout as p.gap) : Int)) nodes) := by
  obtain ⟨ts', t, tb, A, a, u, B, h1, h2, h3, h4, ⟨o, h5⟩, h6, h7⟩ := without h hat hg hn ho hs hp hq
  generalize hP : (fun t : Token => decide (t.range.start.bytes = (utf8Len (layout as p.gap) : Int))) = P
  have hcur : (splitFrom tb t.range.start.line).cur = [] := by
    cases tb with
    | nil => simp [splitFrom]
    | cons w tb =>
      cases bs with
      | nil => simp [TokensAt] at h5
      | cons q bs =>
        have hw : w.tokenType = q.type := h5.1
        have hwl := h5.2.2.2.1
        rw [splitFrom]
        split
        · rfl
        · next hc =>
          rcases hl q rfl with hl | hl
          · have := List.count_pos_iff.2 hl
            rw [if_neg (by omega)]
          · exact absurd (hw.trans hl) hc
  rw [hcur] at h4 h6 h7
  have hf : ∀ st ∈ A ++ B ++ [a ++ [u]], ∀ v ∈ st, P v = false := by
    intro st hst v hv
    rw [← hP]
    simpa using h4 st hst v hv
  have ht : P t = true := by rw [← hP]; simpa using h3
  have hmem : ∀ {st}, st ∈ A ∨ st ∈ B → ∀ v ∈ st, P v = false := fun hst => hf _ (by
    simp only [List.mem_append]
    rcases hst with hst | hst
    · exact .inl (.inl hst)
    · exact .inl (.inr hst))
  have hd : ((split ts).all.map (dropMkay P)) = A ++ (a ++ [u]) :: B := by
    rw [h6, List.map_append, List.map_cons]
    congr 1
    · exact (List.map_congr_left fun st hst => dropMkay_none (hmem (.inl hst))).trans (List.map_id _)
    · congr 1
      · refine dropMkay_one (p := P) h2 ht fun v r hv => ?_
        refine hi (a ++ [u, t]) (by rw [h6]; simp) v (r ++ [t]) ?_ ⟨t, by simp, h3⟩
        have : a ++ [u, t] = (a ++ [u]) ++ [t] := by simp
        rw [this, hv]
        rfl
      · exact (List.map_congr_left fun st hst => dropMkay_none (hmem (.inr hst))).trans (List.map_id _)
  rw [← hd] at h7
  have h8 := types_unplaced h7
  rw [List.map_map] at h8
  obtain ⟨nodes', g1, g2, g3⟩ := C96_mkay P (tokens' := ts') (parse_of_tokenizeAndParse h hx) he
    (stmts_each (f := List.map Token.unplaced ∘ dropMkay P) (g := List.map Token.unplaced) rfl rfl h8)
  exact retold h1 g1 g2 g3

-- The `MKAY` of the same program, without the spaces before and after `AN` being touched.
private def mkayBefore : List Piece :=
  [⟨[], chars!"ALL OF", .keyword .ALL_OF⟩, ⟨chars!" ", chars!"x", .identifier chars!"x"⟩,
    ⟨chars!" ", chars!"O", .identifier chars!"O"⟩]

private def mkayPiece : Piece := ⟨chars!" ", chars!"MKAY", .keyword .MKAY⟩

private def mkayAfter : List Piece := [⟨chars!"\n", chars!"GTFO", .keyword .GTFO⟩]

private theorem heads {ts : List Token} (h : ∀ st ∈ (split ts).all, ∀ v ∈ st.head?, ¬ v.Is .I_IZ ∧ ¬ v.Is .HAI) (o : Int) :
    ∀ st ∈ (split ts).all, ∀ v r, st = v :: r → (∃ t ∈ r, t.range.start.bytes = o) → ¬ v.Is .I_IZ ∧ ¬ v.Is .HAI := by
  rintro st hst v r rfl -
  exact h _ hst v rfl

set_option maxRecDepth 8000 in
example : ∃ ts nodes, tokenize (layout (mkayBefore ++ mkayPiece :: mkayAfter) []) = .ok (.ok ts) ∧
    TokensAt 0 1 (mkayBefore ++ mkayPiece :: mkayAfter) ts ∧ mkayPiece.gap ≠ [] ∧ '\n' ∉ mkayPiece.gap ∧
    (∃ c r, layout mkayAfter [] = c :: r ∧ IsWs c) ∧
    (∀ q ∈ mkayBefore, ∀ s, q.type = .value (.string s) → ∀ c ∈ s, IsAscii c) ∧
    (∃ q, mkayBefore.getLast? = some q ∧ q.type ≠ .comma ∧ q.type ≠ .ellipsis) ∧
    (∀ q, mkayAfter.head? = some q → '\n' ∈ q.gap ∨ q.type = .comma) ∧
    (∀ st ∈ (split ts).all, ∀ v r, st = v :: r →
      (∃ t ∈ r, t.range.start.bytes = (utf8Len (layout mkayBefore mkayPiece.gap) : Int)) → ¬ v.Is .I_IZ ∧ ¬ v.Is .HAI) ∧
    tokenizeAndParse (layout (mkayBefore ++ mkayPiece :: mkayAfter) []) = .ok (.ok nodes) ∧ errorFreeBlock nodes := by
  refine ⟨_, _, rfl, ?_, by decide, by decide, ⟨'\n', _, rfl, .inr (.inr rfl)⟩, ?_, ⟨_, rfl, by simp, by simp⟩, ?_, ?_,
    rfl, ?_⟩
  · simp only [mkayBefore, mkayPiece, mkayAfter, List.cons_append, List.nil_append, TokensAt]
    decide +kernel
  · intro q hq s hs
    simp only [mkayBefore, List.mem_cons, List.not_mem_nil, or_false] at hq
    rcases hq with rfl | rfl | rfl <;> cases hs
  · rintro q ⟨⟩
    exact .inl (by decide)
  · exact heads (by decide +kernel) _
  · simp [errorFreeBlock, Node.ErrorFree]

end Lol
