import Verif.Parser.GraftSplit
import Verif.Parser.CommentLemmas
import Verif.Props.EditLine
import Verif.Props.LexerPositions
import Verif.Props.ParserTree
import Verif.Lexer.TidyLemmas

/-! # Expressions in place of literals in a source text (C101) -/

namespace Lol

private theorem last_setGap {g : Str} {X : List Piece} {q : Piece} (h : (setGap g X).getLast? = some q) :
    ∃ q', X.getLast? = some q' ∧ q'.lex = q.lex := by
  cases X with
  | nil => cases h
  | cons p X =>
    cases X with
    | nil => cases h; exact ⟨p, rfl, rfl⟩
    | cons r X =>
      rw [setGap, List.getLast?_cons_cons] at h
      exact ⟨q, by rw [List.getLast?_cons_cons]; exact h, rfl⟩

private theorem setGap_types (g : Str) (X : List Piece) : (setGap g X).map (·.type) = X.map (·.type) := by
  cases X <;> rfl

private theorem layout_firstGap (B : List Piece) (tail : Str) : ∃ y, layout B tail = firstGap B tail ++ y := by
  cases B with
  | nil => exact ⟨[], by simp [layout, firstGap]⟩
  | cons p B => exact ⟨_, rfl⟩

/-- What is known of the expression. -/
private theorem OneExpression.facts {X : List Piece} {e : Expr} (h : OneExpression X e) :
    Lexed X ['\n'] ∧ X.map (·.type) = e.toks.map (·.tokenType) ∧ e.WF ∧ ¬ e.IsNoob ∧ X ≠ [] ∧
      ∀ u ∈ e.toks, u.Inner := by
  obtain ⟨h1, ⟨ts, h2, h3⟩, h4⟩ := h
  obtain ⟨ts', h5, h6⟩ := (C46_ok_iff _ _).1 h1
  rw [h2] at h5
  cases h5
  obtain ⟨q, hq⟩ := tokenize_scan h2
  have hk := h3.keys
  have hline := (keysAt_line (l := 1) fun q hq => (h4 q hq).2.1).1
  rw [hline] at hk
  have hin : ∀ t ∈ ts, t.Inner ∧ t.range.start.line = 1 := by
    intro t ht
    have hm : t.key ∈ ts.map Token.key := List.mem_map_of_mem ht
    rw [hk] at hm
    obtain ⟨q, hq, hqk⟩ := List.mem_map.1 hm
    simp only [Token.key, Prod.mk.injEq] at hqk
    exact ⟨⟨hqk.1 ▸ (h4 q hq).2.2.1, hqk.1 ▸ (h4 q hq).2.2.2⟩, hqk.2.symm⟩
  obtain ⟨he, hwf⟩ := expression_toks (split_one_line hin) h6
  have hty : X.map (·.type) = ts.map (·.tokenType) := by
    have := congrArg (List.map Prod.fst) hk
    simpa [Token.key, Function.comp_def] using this.symm
  refine ⟨Lexed.of_tokens hq h3, he ▸ hty, hwf, ?_, ?_, fun u hu => (hin u (he ▸ hu)).1⟩
  · rintro ⟨t, rfl, ht⟩
    have hmem : t ∈ ts := by rw [he]; simp [Expr.toks, ExprValue.toks]
    exact (C11_never_emitted h2 hmem ht).2.2.1 rfl
  · rintro rfl
    obtain ⟨u, us, hu⟩ := e.toks_ne
    rw [← he] at hu
    rw [hu] at hty
    cases hty

/-- The tokens of the new text and its statements. -/
private theorem grafted {A X B : List Piece} {p : Piece} {tail : Str} {ts : List Token} {t : Token} {e : Expr}
    {v : TokenValue} (h : tokenize (layout (A ++ p :: B) tail) = .ok (.ok ts)) (hat : TokensAt 0 1 (A ++ p :: B) ts)
    (ht : ts[A.length]? = some t) (hv : p.type = .value v) (hm : ∀ q ∈ A, q.Movable)
    (hh : ∀ k u r, stmt ts k = u :: r → t ∈ r → ¬ u.Is .HAI) (hx : OneExpression X e) (hA : Apart A p.gap)
    (hB : ApartFrom X B tail) :
    (∃ ts', tokenize (layout (A ++ (setGap p.gap X ++ B)) tail) = .ok (.ok ts') ∧
      ∀ k, (stmt ts' k).map Token.unplaced = (putIn (only t e) (stmt ts k)).map Token.unplaced) ∧
      t.tokenType = p.type := by
  obtain ⟨hX, hty, hwf, hnoob, hne, hinner⟩ := hx.facts
  obtain ⟨q, hq⟩ := tokenize_scan h
  have hl := Lexed.of_tokens hq hat
  obtain ⟨hp1, hp2, hp3⟩ := hl.suffix
  -- the lexemes
  have hmX : ∀ q ∈ setGap p.gap X, q.Movable := by
    intro q hq
    cases X with
    | nil => cases hq
    | cons x X =>
      rcases List.mem_cons.1 hq with rfl | hq
      · exact (hx.2.2 x (by simp)).1
      · exact (hx.2.2 q (by simp [hq])).1
  have hX' : Lexed (setGap p.gap X ++ []) ['\n'] := by
    rw [List.append_nil]
    cases X with
    | nil => exact absurd rfl hne
    | cons x X => exact ⟨hp1, hX.2.1, hX.2.2⟩
  obtain ⟨y, hy⟩ := layout_firstGap B tail
  have hXB : Lexed (setGap p.gap X ++ B) tail := by
    have hnc : ∀ q ∈ setGap p.gap X, ∀ s, q.type ≠ .commentSingleLine s := by
      intro q hq s hs
      have : q.type ∈ X.map (·.type) := by
        rw [← setGap_types p.gap X]
        exact List.mem_map_of_mem hq
      rw [hty] at this
      obtain ⟨u, hu, hut⟩ := List.mem_map.1 this
      exact absurd (.inl ⟨s, by rw [hut, hs]⟩) (hwf.noComment u hu)
    rcases hB with hB | ⟨b, B', rfl, hb1, hb2⟩
    · refine hX'.graft hmX (fun q hq => ?_) (fun q s hq hs => ?_) hp3 hy
      · obtain ⟨q', h1, h2⟩ := last_setGap hq
        rw [← h2]
        exact hB q' h1
      · exact absurd hs (hnc q (List.mem_of_getLast? hq) s)
    · rcases hb2 with hb2 | hb2
      · exact hX'.graft_mark hmX hnc (.inl rfl) hp3 (y := layout B' tail) (by simp [layout, hb1, hb2])
      · exact hX'.graft_mark hmX hnc (.inr (.inr rfl)) hp3 (y := layout B' tail) (by simp [layout, hb1, hb2])
  obtain ⟨z, hz⟩ : ∃ z, layout (setGap p.gap X ++ B) tail = p.gap ++ z := by
    cases X with
    | nil => exact absurd rfl hne
    | cons x X => exact ⟨_, rfl⟩
  have hnew : Lexed (A ++ (setGap p.gap X ++ B)) tail := by
    refine hl.graft hm hA (fun q s hq hs => ?_) hXB hz
    obtain ⟨A0, rfl⟩ : ∃ A0, A = A0 ++ [q] := by
      rw [List.getLast?_eq_some_iff] at hq
      exact hq
    rw [List.append_assoc] at hl
    have := hl.suffix
    exact Lexeme.comment_gap (g := p.gap) (l := p.lex) (hs ▸ this.2.1) hp2.head_not_ws
  obtain ⟨ts', q', hs', hat'⟩ := hnew.scan .first
  have htok : tokenize (layout (A ++ (setGap p.gap X ++ B)) tail) = .ok (.ok ts') := by
    rw [tokenize_eq_run, run_scan hs', run_nil]
    simp [prepend]
  -- the lines
  have hts : ts = ts.take A.length ++ t :: ts.drop (A.length + 1) := by
    obtain ⟨hlt, hget⟩ := List.getElem?_eq_some_iff.1 ht
    rw [← hget, ← List.drop_eq_getElem_cons hlt, List.take_append_drop]
  have hlen : (ts.take A.length).length = A.length := by
    obtain ⟨hlt, -⟩ := List.getElem?_eq_some_iff.1 ht
    simp; omega
  generalize ts.take A.length = ta, ts.drop (A.length + 1) = tb at hts hlen
  have hkeys := hat.keys
  rw [keysAt_append, hts, List.map_append] at hkeys
  obtain ⟨k1, k2⟩ := List.append_inj hkeys (by rw [List.length_map, keysAt_length, hlen])
  rw [keysAt, List.map_cons, List.cons.injEq] at k2
  obtain ⟨k2, k3⟩ := k2
  simp only [Token.key, Prod.mk.injEq] at k2
  obtain ⟨k2, k4⟩ := k2
  refine ⟨⟨ts', htok, fun k => ?_⟩, k2⟩
  -- the statements
  have hval : t.tokenType = .value v := k2.trans hv
  have hno : ∀ u ∈ ta ++ tb, u ≠ t := by
    obtain ⟨o1, o2⟩ := C04_ranges_ordered h
    have o3 := o1 t (by rw [hts]; simp)
    rw [hts, List.pairwise_append, List.pairwise_cons] at o2
    rintro u hu rfl
    rcases List.mem_append.1 hu with hu | hu
    · have := o2.2.2 u hu u (by simp)
      omega
    · have := o2.2.1.1 u hu
      omega
  have hputs : PutsInner (only t e) := by
    intro u e' hu
    unfold only at hu
    split at hu
    · next hut =>
      cases hu
      subst hut
      exact ⟨⟨by rw [hval]; simp, by rw [hval]; simp⟩, hinner⟩
    · cases hu
  have hflat : ∀ us : List Token, (∀ u ∈ us, u ≠ t) → us.flatMap (putAt (only t e)) = us := by
    intro us hus
    induction us with
    | nil => rfl
    | cons u us ih =>
      have : putAt (only t e) u = [u] := by simp [putAt, only, hus u (by simp)]
      rw [List.flatMap_cons, this, ih fun u hu => hus u (by simp [hu])]
      rfl
  have hk : ts'.map Token.key = (ts.flatMap (putAt (only t e))).map Token.key := by
    rw [hat'.keys, keysAt_setGap hne fun q hq => (hx.2.2 q hq).2.1, hts, List.flatMap_append, List.flatMap_cons,
      hflat ta fun u hu => hno u (by simp [hu]), hflat tb fun u hu => hno u (by simp [hu]), List.map_append,
      List.map_append, k1, k3]
    rw [lineAfter_concat]
    congr 2
    simp only [putAt, only, if_true, List.map_map, Function.comp_def, Token.key, k4]
    have := congrArg (List.map fun ty => (ty, lineAfter 1 A + ((p.gap.count '\n' : Nat) : Int))) hty
    rw [List.map_map, List.map_map] at this
    exact this
  rw [stmt_putAt hputs hk]
  congr 1
  cases hst : stmt ts k with
  | nil => rfl
  | cons u r =>
    rw [putIn]
    split
    · next hu =>
      have hut : u ≠ t := by
        rintro rfl
        have hu : u.tokenType = _ := hu
        rw [hval] at hu
        cases hu
      have hr : t ∉ r := fun hr => hh k u r hst hr hu
      have : ∀ us : List Token, t ∉ us → putInTokens (only t e) us = us := by
        intro us hus
        induction us with
        | nil => rfl
        | cons w us ih =>
          rw [List.mem_cons, not_or] at hus
          have hw : only t e w = none := by simp [only, Ne.symm hus.1]
          have := ih hus.2
          simp only [putInTokens, List.flatMap_cons, hw] at this ⊢
          rw [this]
          rfl
      exact this _ (by simp [hr, Ne.symm hut])
    · rfl

/-! ## C101 -/

/-- **C101** In a source text that is parsed without errors, a literal can be replaced by the text of any expression:
when the lexeme of a value token, not in a statement that starts with `HAI`, is replaced by a line that alone is read as
an expression `e` and does not end with an operation without `MKAY`, and white space keeps it apart from what stands
before and after it (or `,` or `!` comes right behind it), then the new text is parsed without errors, and up to positions its tree is the old one with `e` in
place of the literal. -/
theorem C101_put_in {A X B : List Piece} {p : Piece} {tail : Str} {ts : List Token} {t : Token} {e : Expr}
    {v : TokenValue} {nodes : Block} (h : tokenize (layout (A ++ p :: B) tail) = .ok (.ok ts))
    (hat : TokensAt 0 1 (A ++ p :: B) ts) (ht : ts[A.length]? = some t) (hv : p.type = .value v)
    (hm : ∀ q ∈ A, q.Movable) (hh : ∀ k u r, stmt ts k = u :: r → t ∈ r → ¬ u.Is .HAI) (hx : OneExpression X e)
    (ho : ¬ e.Open) (hA : Apart A p.gap) (hB : ApartFrom X B tail)
    (hp : tokenizeAndParse (layout (A ++ p :: B) tail) = .ok (.ok nodes)) (he : errorFreeBlock nodes) :
    ∃ nodes', tokenizeAndParse (layout (A ++ (setGap p.gap X ++ B)) tail) = .ok (.ok nodes') ∧ errorFreeBlock nodes' ∧
      mapBlock Token.unplaced nodes' = mapBlock Token.unplaced (retouchBlock (withExpressions (only t e)) nodes) := by
  obtain ⟨⟨ts', h1, h2⟩, h3⟩ := grafted h hat ht hv hm hh hx hA hB
  obtain ⟨-, -, hwf, hnoob, -, -⟩ := hx.facts
  obtain ⟨ts0, h4, h5⟩ := (C46_ok_iff _ _).1 hp
  rw [h] at h4
  cases h4
  have hσ : Replaces (only t e) := by
    intro u e' hu
    unfold only at hu
    split at hu
    · next hut =>
      cases hu
      exact ⟨⟨v, by rw [hut, h3, hv]⟩, hwf, ho, hnoob⟩
    · cases hu
  obtain ⟨nodes', h6, h7, h8⟩ := C97_put_in hσ h5 he h2
  exact ⟨nodes', tokenizeAndParse_of h1 h6, h7, h8⟩

/-- **C101** And the other way round: with an expression that does not end with a variable access either, the new text is
parsed without errors only if the old one is. -/
theorem C101_iff {A X B : List Piece} {p : Piece} {tail : Str} {ts : List Token} {t : Token} {e : Expr}
    {v : TokenValue} (h : tokenize (layout (A ++ p :: B) tail) = .ok (.ok ts))
    (hat : TokensAt 0 1 (A ++ p :: B) ts) (ht : ts[A.length]? = some t) (hv : p.type = .value v)
    (hm : ∀ q ∈ A, q.Movable) (hh : ∀ k u r, stmt ts k = u :: r → t ∈ r → ¬ u.Is .HAI) (hx : OneExpression X e)
    (ho : ¬ e.Open) (hacc : ¬ e.EndsInAccess) (hA : Apart A p.gap) (hB : ApartFrom X B tail) :
    (∃ nodes, tokenizeAndParse (layout (A ++ p :: B) tail) = .ok (.ok nodes) ∧ errorFreeBlock nodes) ↔
      ∃ nodes', tokenizeAndParse (layout (A ++ (setGap p.gap X ++ B)) tail) = .ok (.ok nodes') ∧
        errorFreeBlock nodes' := by
  constructor
  · rintro ⟨nodes, h1, h2⟩
    obtain ⟨nodes', h3, h4, -⟩ := C101_put_in h hat ht hv hm hh hx ho hA hB h1 h2
    exact ⟨nodes', h3, h4⟩
  · rintro ⟨nodes', h1, h2⟩
    obtain ⟨⟨ts', h3, h4⟩, h5⟩ := grafted h hat ht hv hm hh hx hA hB
    obtain ⟨-, -, hwf, hnoob, -, -⟩ := hx.facts
    obtain ⟨ts0, h6, h7⟩ := (C46_ok_iff _ _).1 h1
    rw [h3] at h6
    cases h6
    have hσ : ReplacesFirmly (only t e) := by
      refine ⟨fun u e' hu => ?_, fun u e' hu => ?_⟩ <;> unfold only at hu <;> split at hu
      · next hut =>
        cases hu
        exact ⟨⟨v, by rw [hut, h5, hv]⟩, hwf, ho, hnoob⟩
      · cases hu
      · cases hu
        exact hacc
      · cases hu
    obtain ⟨nodes, h8, h9⟩ := (C97_iff hσ h4).2 ⟨nodes', h7, h2⟩
    exact ⟨nodes, tokenizeAndParse_of h h8, h9⟩

/-- `VISIBLE SUM OF` -/
private def before7 : List Piece :=
  [⟨[], chars!"VISIBLE", .keyword .VISIBLE⟩, ⟨chars!" ", chars!"SUM OF", .keyword .SUM_OF⟩]

/-- `7` -/
private def piece7 : Piece := ⟨chars!" ", chars!"7", .value (.number (.int 7))⟩

/-- `AN y` -/
private def after7 : List Piece :=
  [⟨chars!" ", chars!"AN", .keyword .AN⟩, ⟨chars!" ", chars!"y", .identifier chars!"y"⟩]

/-- `NOT WIN` -/
private def notWin : List Piece :=
  [⟨[], chars!"NOT", .keyword .NOT⟩, ⟨chars!" ", chars!"WIN", .value (.boolean true)⟩]

private theorem apart_space {ps : List Piece} {q : Piece} (h : ps.getLast? = some q) (hj : ¬ Joins q.lex) :
    Apart ps [' '] := by
  intro q' hq
  rw [h] at hq
  cases hq
  exact .inr ⟨rfl, hj⟩

-- `7` in `VISIBLE SUM OF 7 AN y` is replaced by `NOT WIN`.
example : layout (before7 ++ piece7 :: after7) ['\n'] = chars!"VISIBLE SUM OF 7 AN y\n" ∧
    layout (before7 ++ (setGap piece7.gap notWin ++ after7)) ['\n'] = chars!"VISIBLE SUM OF NOT WIN AN y\n" := by
  decide +kernel

private theorem oneNotWin : ∃ e, OneExpression notWin e ∧ ¬ e.Open ∧ ¬ e.EndsInAccess := by
  refine ⟨_, ⟨rfl, ⟨_, rfl, ?_⟩, ?_⟩, ?_, ?_⟩
  · simp only [notWin, TokensAt]
    decide +kernel
  · intro q hq
    simp only [notWin, List.mem_cons, List.not_mem_nil, or_false] at hq
    rcases hq with rfl | rfl <;> 
      exact ⟨⟨fun s h => (by cases h), fun c h => (by cases h)⟩, by decide, by decide, by decide⟩
  · simp [Expr.Open]
  · simp [Expr.EndsInAccess]

example : ∃ ts t e nodes, tokenize (layout (before7 ++ piece7 :: after7) ['\n']) = .ok (.ok ts) ∧
    TokensAt 0 1 (before7 ++ piece7 :: after7) ts ∧ ts[before7.length]? = some t ∧
    (∀ q ∈ before7, q.Movable) ∧ (∀ k u r, stmt ts k = u :: r → t ∈ r → ¬ u.Is .HAI) ∧ OneExpression notWin e ∧
    ¬ e.Open ∧ ¬ e.EndsInAccess ∧ Apart before7 piece7.gap ∧ ApartFrom notWin after7 ['\n'] ∧
    tokenizeAndParse (layout (before7 ++ piece7 :: after7) ['\n']) = .ok (.ok nodes) ∧ errorFreeBlock nodes := by
  obtain ⟨e, h1, h2, h3⟩ := oneNotWin
  refine ⟨_, _, e, _, rfl, ?_, rfl, ?_, ?_, h1, h2, h3, ?_, ?_, rfl, ?_⟩
  · simp only [before7, piece7, after7, TokensAt, List.cons_append, List.nil_append]
    decide +kernel
  · intro q hq
    simp only [before7, List.mem_cons, List.not_mem_nil, or_false] at hq
    rcases hq with rfl | rfl <;> exact ⟨fun s h => (by cases h), fun c h => (by cases h)⟩
  · intro k u r hk _ hu
    match k with
    | 0 => cases hk; cases hu
    | 1 => cases hk
    | k + 2 => cases hk
  · exact apart_space (q := ⟨chars!" ", chars!"SUM OF", .keyword .SUM_OF⟩) rfl (by
      rw [joins_iff]; decide +kernel)
  · exact .inl <| apart_space (q := ⟨chars!" ", chars!"WIN", .value (.boolean true)⟩) rfl (by
      rw [joins_iff]; decide +kernel)
  · simp [errorFreeBlock, Node.ErrorFree]

-- An exclamation mark may follow at once.
example : layout ([⟨[], chars!"VISIBLE", .keyword .VISIBLE⟩] ++ (setGap piece7.gap notWin ++
      [⟨[], ['!'], .exclamationMark⟩])) ['\n'] = chars!"VISIBLE NOT WIN!\n" ∧
    ApartFrom notWin [⟨[], ['!'], .exclamationMark⟩] ['\n'] :=
  ⟨by decide +kernel, .inr ⟨_, _, rfl, rfl, .inr rfl⟩⟩

-- A single space is not always enough: `SUM 7` are two expressions, but with `OF` in place of `7` it is a keyword.
example : ((tokenizeAndParse chars!"VISIBLE SUM 7\n") matches .ok (.ok [.visible _])) ∧
    ((tokenizeAndParse chars!"OF\n") matches .ok (.ok [.expression _])) ∧
    ((tokenizeAndParse chars!"VISIBLE SUM  OF\n") matches .ok (.ok [.visible _])) ∧
    ((tokenizeAndParse chars!"VISIBLE SUM OF\n") matches .ok (.ok (.astError _ :: _))) := ⟨rfl, rfl, rfl, rfl⟩

end Lol
