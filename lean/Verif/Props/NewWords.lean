import Verif.Lexer.WordLemmas
import Verif.Props.Roles
import Verif.Props.Rename

/-! # Other keywords in a source text (C99) -/

namespace Lol

private theorem types_reword {ρ : TokenType → TokenType} (hρ : Rewording ρ) (p : Piece) :
    (Piece.reword ρ p).type = ρ p.type := by
  unfold Piece.reword
  rcases hρ p.type with h | ⟨k, k', h1, h2, -⟩
  · rw [h]
    split
    · next h => rw [h]
    · rfl
  · rw [h2]

private theorem gap_reword {ρ : TokenType → TokenType} (p : Piece) : (Piece.reword ρ p).gap = p.gap := by
  unfold Piece.reword
  split <;> rfl

private theorem steps_reword {ρ : TokenType → TokenType} (hρ : Rewording ρ) {o o' l : Int} {ps : List Piece}
    {ts ts' : List Token} (h : TokensAt o l ps ts) (h' : TokensAt o' l (ps.map (Piece.reword ρ)) ts') :
    SameSteps l l (ts.map (Token.reword ρ)) ts' := by
  induction ps generalizing o o' l ts ts' with
  | nil =>
    cases ts <;> cases ts' <;> simp only [TokensAt, List.map_nil] at h h'
    trivial
  | cons p ps ih =>
    cases ts with
    | nil => simp only [TokensAt] at h
    | cons t ts =>
      cases ts' with
      | nil => simp only [TokensAt, List.map_cons] at h'
      | cons t' ts' =>
        obtain ⟨a1, -, -, a4, a5⟩ := h
        obtain ⟨b1, -, -, b4, b5⟩ := h'
        rw [gap_reword] at b4 b5
        refine ⟨?_, ?_, ?_⟩
        · show ρ t.tokenType = t'.tokenType
          rw [a1, b1, types_reword hρ]
        · show t.range.start.line = l ↔ t'.range.start.line = l
          rw [a4, b4]
        · show SameSteps t.range.start.line t'.range.start.line _ _
          rw [a4, b4]
          exact ih a5 b5

private theorem sep_reword {ρ : TokenType → TokenType} (hρ : Rewording ρ) (t : Token) {ty : TokenType}
    (hty : ∀ k, ty ≠ .keyword k) : (t.reword ρ).tokenType = ty ↔ t.tokenType = ty := by
  show ρ t.tokenType = ty ↔ _
  rcases hρ t.tokenType with h | ⟨k, k', h1, h2, -⟩
  · rw [h]
  · rw [h2, h1]
    exact ⟨fun h => absurd h.symm (hty k'), fun h => absurd h.symm (hty k)⟩

private theorem firstLine_reword (ρ : TokenType → TokenType) (ts : List Token) (l : Int) :
    firstLine (ts.map (Token.reword ρ)) l = firstLine ts l := by
  cases ts <;> rfl

private theorem split_reword {ρ : TokenType → TokenType} (hρ : Rewording ρ) (ts : List Token) :
    (∀ l, splitFrom (ts.map (Token.reword ρ)) l = (splitFrom ts l).map (Token.reword ρ)) ∧
    splitGap (ts.map (Token.reword ρ)) = (splitGap ts).map (List.map (Token.reword ρ)) := by
  have hall : ∀ s : Stmts, (s.map (Token.reword ρ)).all = s.all.map (List.map (Token.reword ρ)) := fun s => rfl
  have hpush : ∀ (s : Stmts) t, (s.map (Token.reword ρ)).push (t.reword ρ) = (s.push t).map (Token.reword ρ) :=
    fun s t => rfl
  induction ts with
  | nil => exact ⟨fun _ => by simp [splitFrom, Stmts.map], by simp [splitGap]⟩
  | cons t ts ih =>
    obtain ⟨ih1, ih2⟩ := ih
    have hc := sep_reword hρ t (ty := .comma) (by simp)
    have he := sep_reword hρ t (ty := .ellipsis) (by simp)
    have hr : (t.reword ρ).range = t.range := rfl
    refine ⟨fun l => ?_, ?_⟩
    · rw [List.map_cons, splitFrom, splitFrom]
      simp only [hc, he, hr, ih1, ih2, firstLine_reword, hall, hpush]
      (repeat' split) <;> rfl
    · rw [List.map_cons, splitGap, splitGap]
      simp only [hc, he, hr, ih1, ih2, firstLine_reword, hall, hpush]
      (repeat' split) <;> rfl

private theorem stmt_reword {ρ : TokenType → TokenType} (hρ : Rewording ρ) (ts : List Token) (k : Nat) :
    stmt (ts.map (Token.reword ρ)) k = (stmt ts k).map (Token.reword ρ) := by
  have h : split (ts.map (Token.reword ρ)) = (split ts).map (Token.reword ρ) := by
    unfold split
    rw [firstLine_reword]
    exact (split_reword hρ ts).1 _
  rw [stmt, stmt, h]
  show ((split ts).all.map (List.map (Token.reword ρ))).getD k [] = _
  rw [List.getD_eq_getElem?_getD, List.getD_eq_getElem?_getD, List.getElem?_map]
  cases (split ts).all[k]? <;> rfl

/-! ## C99 -/

/-- **C99** When placeable keywords are put in place of keywords of a source text, without any change to what stands
between them, the tokens are the same with the new keywords in them. -/
theorem C99_tokens {ρ : TokenType → TokenType} (hρ : Rewording ρ) {ps : List Piece} {tail : Str} {ts : List Token}
    (h : tokenize (layout ps tail) = .ok (.ok ts)) (hat : TokensAt 0 1 ps ts)
    (hs : ∀ t ∈ ts, ∀ s, t.tokenType = .value (.string s) → ∀ c ∈ s, IsAscii c) :
    ∃ ts', tokenize (layout (ps.map (Piece.reword ρ)) tail) = .ok (.ok ts') ∧
      TokensAt 0 1 (ps.map (Piece.reword ρ)) ts' ∧ ts'.map (·.tokenType) = ts.map fun t => ρ t.tokenType := by
  obtain ⟨q, hq⟩ := tokenize_scan h
  have hl := (Lexed.of_tokens hq hat).reword hρ fun p hp s hty => by
    have : p.type ∈ ts.map (·.tokenType) := by rw [hat.types]; exact List.mem_map.2 ⟨p, hp, rfl⟩
    obtain ⟨t, ht, he⟩ := List.mem_map.1 this
    exact hs t ht s (he.trans hty)
  obtain ⟨ts', q', h1, h2⟩ := hl.scan .first
  refine ⟨ts', ?_, h2, ?_⟩
  · rw [tokenize_eq_run, run_scan h1, run_nil]
    simp [prepend]
  · have : (ts.map fun t => ρ t.tokenType) = (ts.map (·.tokenType)).map ρ := by simp
    rw [h2.types, this, hat.types, List.map_map, List.map_map]
    exact List.map_congr_left fun p _ => types_reword hρ p

/-- Puts `DIFF OF` in place of `SUM OF`, `SMOOSH` in place of `ALL OF` and `YARN` in place of `NUMBR` (for the
examples). -/
private def newWord : TokenType → TokenType
  | .keyword .SUM_OF => .keyword .DIFF_OF
  | .keyword .ALL_OF => .keyword .SMOOSH
  | .keyword .NUMBR => .keyword .YARN
  | ty => ty

private theorem newWord_rewording : Rewording newWord := by
  intro ty
  unfold newWord
  split
  · exact .inr ⟨_, .DIFF_OF, rfl, rfl, rfl⟩
  · exact .inr ⟨_, .SMOOSH, rfl, rfl, rfl⟩
  · exact .inr ⟨_, .YARN, rfl, rfl, rfl⟩
  · exact .inl rfl

private theorem newWord_role (ty : TokenType) : (newWord ty).role = ty.role := by
  unfold newWord
  split <;> rfl

private def oldWords : List Piece :=
  [⟨[], chars!"I HAS A", .keyword .I_HAS_A⟩, ⟨chars!" ", chars!"x", .identifier chars!"x"⟩,
    ⟨chars!" ", chars!"ITZ", .keyword .ITZ⟩, ⟨[], chars!"NUMBR", .keyword .NUMBR⟩,
    ⟨chars!"\n", chars!"VISIBLE", .keyword .VISIBLE⟩, ⟨[], chars!"ALL OF", .keyword .ALL_OF⟩,
    ⟨chars!" ", chars!"x", .identifier chars!"x"⟩, ⟨chars!" ", chars!"SUM OF", .keyword .SUM_OF⟩,
    ⟨chars!"\t", chars!"x", .identifier chars!"x"⟩, ⟨chars!" ", chars!"x", .identifier chars!"x"⟩]

-- Keywords are exchanged also where they follow other keywords directly.
example : layout oldWords [] = chars!"I HAS A x ITZNUMBR\nVISIBLEALL OF x SUM OF\tx x" ∧
    layout (oldWords.map (Piece.reword newWord)) [] = chars!"I HAS A x ITZYARN\nVISIBLESMOOSH x DIFF OF\tx x" := by
  decide +kernel

example : Rewording newWord ∧ ∃ ts, tokenize (layout oldWords []) = .ok (.ok ts) ∧ TokensAt 0 1 oldWords ts ∧
    ∀ t ∈ ts, ∀ s, t.tokenType = .value (.string s) → ∀ c ∈ s, IsAscii c := by
  refine ⟨newWord_rewording, _, rfl, ?_, ?_⟩
  · simp only [oldWords, TokensAt]
    decide +kernel
  · intro t ht s h
    simp only [List.mem_cons, List.not_mem_nil, or_false] at ht
    rcases ht with rfl | rfl | rfl | rfl | rfl | rfl | rfl | rfl | rfl | rfl <;> cases h

/-- **C99** When the new keywords also play the same parts as the old, the new program is parsed as the old one, up to
positions, with every operator, type and loop operation made the one that its keyword names; `parse` panics on both or
on none. -/
theorem C99_program {ρ : TokenType → TokenType} (hρ : Rewording ρ) (hr : ∀ ty, (ρ ty).role = ty.role) {ps : List Piece}
    {tail : Str} {ts : List Token} (h : tokenize (layout ps tail) = .ok (.ok ts)) (hat : TokensAt 0 1 ps ts)
    (hs : ∀ t ∈ ts, ∀ s, t.tokenType = .value (.string s) → ∀ c ∈ s, IsAscii c) :
    ∃ ts', tokenize (layout (ps.map (Piece.reword ρ)) tail) = .ok (.ok ts') ∧
      mapOutcome Token.unplaced (parse ts') = mapOutcome Token.unplaced (swapOutcome (Token.reword ρ) (parse ts)) := by
  obtain ⟨ts', h1, h2, -⟩ := C99_tokens hρ h hat hs
  refine ⟨ts', h1, ?_⟩
  rw [C65_parse (steps_reword hρ hat h2), C98_replace (f := Token.reword ρ) (fun t => hr _) (stmt_reword hρ ts)]

example : Rewording newWord ∧ (∀ ty, (newWord ty).role = ty.role) ∧
    (∃ ts, tokenize (layout oldWords []) = .ok (.ok ts) ∧ TokensAt 0 1 oldWords ts) ∧
    ∃ nodes, tokenizeAndParse (layout (oldWords.map (Piece.reword newWord)) []) = .ok (.ok nodes) ∧ nodes.length = 2 := by
  refine ⟨newWord_rewording, newWord_role, ⟨_, rfl, ?_⟩, _, rfl, by decide +kernel⟩
  simp only [oldWords, TokensAt]
  decide +kernel

/-- **C99** For source texts: the tree is the same up to positions, with the operators, types and loop operations that
the new keywords name. -/
theorem C99_trees {ρ : TokenType → TokenType} (hρ : Rewording ρ) (hr : ∀ ty, (ρ ty).role = ty.role) {ps : List Piece}
    {tail : Str} {ts : List Token} {nodes : Block} (h : tokenize (layout ps tail) = .ok (.ok ts))
    (hat : TokensAt 0 1 ps ts) (hs : ∀ t ∈ ts, ∀ s, t.tokenType = .value (.string s) → ∀ c ∈ s, IsAscii c)
    (hn : tokenizeAndParse (layout ps tail) = .ok (.ok nodes)) :
    ∃ nodes', tokenizeAndParse (layout (ps.map (Piece.reword ρ)) tail) = .ok (.ok nodes') ∧
      mapBlock Token.unplaced nodes' = mapBlock Token.unplaced (swapBlock (Token.reword ρ) nodes) := by
  obtain ⟨ts', h1, h2⟩ := C99_program hρ hr h hat hs
  have hp : parse ts = .ok nodes := by
    unfold tokenizeAndParse at hn
    rw [h] at hn
    change Out.bind (parse ts) _ = _ at hn
    cases hp : parse ts <;> rw [hp] at hn <;> cases hn
    rfl
  rw [hp] at h2
  obtain ⟨nodes', h3, h4⟩ := mapOutcome_eq_ok h2
  refine ⟨nodes', ?_, h4⟩
  unfold tokenizeAndParse
  rw [h1]
  show Out.bind (parse ts') _ = _
  rw [h3]
  rfl

-- The trees of the program above: a number and a conjunction become a string and a concatenation.
example : ∃ i x n v a l b p q an r, tokenizeAndParse (layout oldWords []) =
      .ok (.ok [.iHasA ⟨i, x, some (.type (.numbr n))⟩,
        .visible ⟨v, [.nary (.allOf a) [.mk l b, .mk (.binary (.sumOf p) q an r) none] none], none⟩]) ∧
    ∃ i x n v a l b p q an r, tokenizeAndParse (layout (oldWords.map (Piece.reword newWord)) []) =
      .ok (.ok [.iHasA ⟨i, x, some (.type (.yarn n))⟩,
        .visible ⟨v, [.nary (.smoosh a) [.mk l b, .mk (.binary (.diffOf p) q an r) none] none], none⟩]) :=
  ⟨_, _, _, _, _, _, _, _, _, _, _, rfl, _, _, _, _, _, _, _, _, _, _, _, rfl⟩

/-- What stands before and after the place where a keyword cannot be written. -/
private def around : Keyword → Str × Str
  | .HAS_A => (chars!"I ", [])
  | .I_HAS_A | .ITZ | .IS_NOW | .IM_IN_YR | .IM_OUTTA_YR | .IF_U_SAY_SO | .I_IZ => (chars!"HOW IZ ", [])
  | .NUMBR | .NUMBAR | .NOT | .NERFIN | .NO_WAI => (chars!"A", [])
  | .AN | .ALL_OF => (chars!"HAS ", [])
  | .WTF => (chars!"OMG", [])
  | .OMG => ([], chars!"WTF")
  | .YR => (chars!"IM IN ", [])
  | .R => (chars!"O ", chars!"LY")
  | .A => ([], chars!"N")
  | _ => ([], [])

private def typeList (s : Str) : Option (List TokenType) :=
  match tokenize s with
  | .ok (.ok ts) => some (ts.map (·.tokenType))
  | _ => none

private theorem typeList_ok {s : Str} {l : List TokenType} (h : typeList s = some l) :
    ∃ ts, tokenize s = .ok (.ok ts) ∧ ts.map (·.tokenType) = l := by
  unfold typeList at h
  split at h
  · next ts hs => exact ⟨ts, hs, by simpa using h⟩
  · cases h

/-- **C99** No other keywords are placeable: for every other keyword there is a text in which it cannot be written in
place of the keyword `TIL`, although that stands there between the tokens before it and the tokens after it. -/
theorem C99_only {k : Keyword} (hk : k.placeable = false) : ∃ (before after : Str) (ts us vs : List Token),
    tokenize before = .ok (.ok ts) ∧ tokenize after = .ok (.ok us) ∧
    tokenize (before ++ (chars!"TIL" ++ after)) = .ok (.ok vs) ∧
    vs.map (·.tokenType) = ts.map (·.tokenType) ++ .keyword .TIL :: us.map (·.tokenType) ∧
    ∀ ws, tokenize (before ++ (k.spelling ++ after)) = .ok (.ok ws) →
      ws.map (·.tokenType) ≠ ts.map (·.tokenType) ++ .keyword k :: us.map (·.tokenType) := by
  have h : ∀ k ∈ Keyword.all, k.placeable = false →
      (match typeList (around k).1, typeList (around k).2,
          typeList ((around k).1 ++ (chars!"TIL" ++ (around k).2)) with
        | some a, some b, some c => decide (c = a ++ .keyword .TIL :: b ∧
          typeList ((around k).1 ++ (k.spelling ++ (around k).2)) ≠ some (a ++ .keyword k :: b))
        | _, _, _ => false) = true := by decide +kernel
  have h := h k k.mem_all hk
  split at h
  · next a b c ha hb hc =>
    obtain ⟨ts, h1, rfl⟩ := typeList_ok ha
    obtain ⟨us, h2, rfl⟩ := typeList_ok hb
    obtain ⟨vs, h3, rfl⟩ := typeList_ok hc
    have h := of_decide_eq_true h
    refine ⟨_, _, ts, us, vs, h1, h2, h3, h.1, fun ws hw he => h.2 ?_⟩
    unfold typeList
    rw [hw, ← he]
  · cases h

-- After a name `HAS`, `SMOOSH` can be written, but the `A` of `ALL OF` becomes part of `HAS A`.
example : Keyword.ALL_OF.placeable = false ∧ ∃ ts us, tokenize chars!"HAS SMOOSH" = .ok (.ok ts) ∧
    tokenize chars!"HAS ALL OF" = .ok (.ok us) ∧
    ts.map (·.tokenType) = [.identifier chars!"HAS", .keyword .SMOOSH] ∧
    us.map (·.tokenType) = [.keyword .HAS_A, .identifier chars!"LL", .identifier chars!"OF"] := by
  refine ⟨rfl, _, _, rfl, rfl, ?_⟩
  decide +kernel

end Lol
