import Verif.Lexer.TidyLemmas
import Verif.Props.Layout

/-! # Properties of `tokenize` and `tokenize_and_parse`: the shortest white space (C86) -/

namespace Lol

/-! ## C86 -/

/-- **C86** The words after which a single space can join lexemes to a keyword. -/
theorem C86_joiners (lex : Str) : Joins lex ↔ lex ∈ joiners := joins_iff lex

-- after `SUM`, but not after `x`, `AN` or `R`
example : Joins chars!"SUM" ∧ ¬ Joins chars!"x" ∧ ¬ Joins chars!"AN" ∧ ¬ Joins chars!"R" := by
  simp only [C86_joiners]
  decide +kernel

private def tokenCount (code : Str) : Option Nat :=
  match tokenize code with
  | .ok (.ok ts) => some ts.length
  | _ => none

private theorem tokenCount_eq {code : Str} {n : Nat} (h : tokenCount code = some n) :
    ∃ ts, tokenize code = .ok (.ok ts) ∧ ts.length = n := by
  unfold tokenCount at h
  split at h
  · exact ⟨_, ‹_›, by simpa using h⟩
  · cases h

/-- **C86** It does join them: apart from the words of `ANY OF`, which is no keyword to the tokenizer, each of these
words stands in a text that has fewer tokens with one space after the word than with two. -/
theorem C86_exact {lex : Str} (h : lex ∈ joiners) (h1 : lex ∉ [chars!"ANY", chars!"NY", chars!"Y"]) :
    ∃ v b ts us, tokenize (v ++ (lex ++ ' ' :: b)) = .ok (.ok ts) ∧
      tokenize (v ++ (lex ++ ' ' :: ' ' :: b)) = .ok (.ok us) ∧ ts.length < us.length := by
  have h2 : ∀ l ∈ joiners, l ∉ [chars!"ANY", chars!"NY", chars!"Y"] →
      (Keyword.all.any fun k => (List.range k.spelling.length).any fun n =>
        (l ++ [' ']).isPrefixOf (k.spelling.drop n) &&
          let v := k.spelling.take n
          let b := k.spelling.drop (n + l.length + 1)
          match tokenCount (v ++ (l ++ ' ' :: b)), tokenCount (v ++ (l ++ ' ' :: ' ' :: b)) with
          | some m, some m' => decide (m < m')
          | _, _ => false) = true := by decide +kernel
  have h3 := h2 lex h h1
  rw [List.any_eq_true] at h3
  obtain ⟨k, -, h3⟩ := h3
  rw [List.any_eq_true] at h3
  obtain ⟨n, -, h3⟩ := h3
  rw [Bool.and_eq_true] at h3
  have h4 := h3.2
  dsimp only at h4
  split at h4
  · rename_i m m' e1 e2
    obtain ⟨ts, t1, t2⟩ := tokenCount_eq e1
    obtain ⟨us, u1, u2⟩ := tokenCount_eq e2
    have := of_decide_eq_true h4
    exact ⟨_, _, ts, us, t1, u1, by omega⟩
  · cases h4

-- `OUTTA` is one of the words
example : chars!"OUTTA" ∈ joiners ∧ chars!"OUTTA" ∉ [chars!"ANY", chars!"NY", chars!"Y"] := by decide +kernel

private theorem tidy_gap {lex : Str} {ty : TokenType} {g rest : Str} (hl : Lexeme lex (g ++ rest) ty) :
    NewGap (some (lex, ty)) g (squeeze (some lex) g) := by
  unfold squeeze
  simp only
  split
  · rename_i hg; exact .inl hg.symm
  · rename_i hg
    right
    by_cases hc : ∃ s, ty = .commentSingleLine s
    · obtain ⟨s, rfl⟩ := hc
      have hn : '\n' ∈ g := by
        generalize hx : g ++ rest = x at hl
        cases hl with
        | btw body rest h1 h2 =>
          cases g with
          | nil => exact absurd rfl hg
          | cons c g =>
            rcases h2 with h2 | ⟨r, h2⟩
            · rw [← hx] at h2; cases h2
            · rw [← hx] at h2; cases h2; simp
      rw [if_pos hn]
      exact ⟨by simp [WsOnly, IsWs], [], rfl⟩
    · have : WideGap (if '\n' ∈ g then ['\n'] else if lex ∈ joiners then ['\t'] else [' ']) ∨
          (if '\n' ∈ g then ['\n'] else if lex ∈ joiners then ['\t'] else [' ']) = [' '] ∧ ¬ Joins lex := by
        split
        · exact .inl ⟨by simp [WsOnly, IsWs], by simp, by simp⟩
        · split
          · exact .inl ⟨by simp [WsOnly, IsWs], by simp, by simp⟩
          · rename_i hj
            exact .inr ⟨rfl, fun h => hj ((joins_iff lex).1 h)⟩
      split
      · rename_i h; cases h
      · rename_i s h; cases h; exact absurd ⟨_, rfl⟩ hc
      · rename_i h; cases h; exact this

private theorem tidy_tail (prev : Option (Str × TokenType)) (tail : Str) : NewGap prev tail ['\n'] := by
  right
  split
  · simp [WsOnly, IsWs]
  · exact ⟨by simp [WsOnly, IsWs], [], rfl⟩
  · exact .inl ⟨by simp [WsOnly, IsWs], by simp, by simp⟩

private theorem tidy_respaced {prev : Option (Str × TokenType)} {ps : List Piece} {tail : Str} (h : Lexed ps tail)
    (hp : ∀ lex ty, prev = some (lex, ty) → Lexeme lex (layout ps tail) ty) :
    Respaced prev ps tail (tidy (prev.map (·.1)) ps) ['\n'] := by
  induction ps generalizing prev with
  | nil => exact .nil (tidy_tail _ _)
  | cons p ps ih =>
    obtain ⟨h1, h2, h3⟩ := h
    refine .cons ?_ (ih (prev := some (p.lex, p.type)) h3 ?_)
    · cases prev with
      | none => exact .inr (by simp [squeeze, WsOnly])
      | some x => exact tidy_gap (hp x.1 x.2 rfl)
    · rintro lex ty ⟨⟩
      exact h2

private theorem tidy_breaks (prev : Str) (ps : List Piece) : SameBreaks ps (tidy (some prev) ps) := by
  induction ps generalizing prev with
  | nil => trivial
  | cons p ps ih =>
    refine ⟨?_, ih _⟩
    simp only [squeeze]
    by_cases h1 : p.gap = []
    · simp [h1]
    · by_cases h2 : '\n' ∈ p.gap
      · simp [h1, h2]
      · by_cases h3 : prev ∈ joiners <;> simp [h1, h2, h3]

private theorem tidy_breaks_tail (prev : Option Str) (ps : List Piece) : SameBreaks ps.tail (tidy prev ps).tail := by
  cases ps with
  | nil => trivial
  | cons p ps => exact tidy_breaks _ _

/-- **C86** With all white space squeezed, the tokens are the same, at the places of their lexemes. -/
theorem C86_tokens {ps : List Piece} {tail : Str} {ts : List Token}
    (h : tokenize (layout ps tail) = .ok (.ok ts)) (hat : TokensAt 0 1 ps ts) (hm : ∀ p ∈ ps, p.Movable) :
    ∃ ts', tokenize (tidyText ps) = .ok (.ok ts') ∧ TokensAt 0 1 (tidy none ps) ts' ∧
      ts'.map (·.tokenType) = ts.map (·.tokenType) := by
  obtain ⟨q, hq⟩ := tokenize_scan h
  exact C65_tokens h hat hm (tidy_respaced (prev := none) (Lexed.of_tokens hq hat) (by simp))

private def somePieces : List Piece :=
  [⟨chars!" \n", chars!"I HAS A", .keyword .I_HAS_A⟩, ⟨chars!"\t ", chars!"x", .identifier chars!"x"⟩,
    ⟨chars!"  ", chars!"ITZ", .keyword .ITZ⟩, ⟨chars!"   ", chars!"SUM OF", .keyword .SUM_OF⟩,
    ⟨chars!"    ", chars!"\"a  b\"", .value (.string chars!"a  b")⟩, ⟨chars!" ", chars!"AN", .keyword .AN⟩,
    ⟨chars!"  ", chars!"IM", .identifier chars!"IM"⟩, ⟨chars!"\n \n\t ", chars!"VISIBLE", .keyword .VISIBLE⟩,
    ⟨chars!"  ", chars!"SAY", .identifier chars!"SAY"⟩, ⟨chars!"  ", chars!"SO", .identifier chars!"SO"⟩]

-- a declaration and a `VISIBLE` with much white space; the string is left as it is, and `SAY` and `SO` are parted by
-- a tab
set_option maxRecDepth 8000 in
example : layout somePieces chars!"\n\n" =
      chars!" \nI HAS A\t x  ITZ   SUM OF    \"a  b\" AN  IM\n \n\t VISIBLE  SAY  SO\n\n" ∧
    tidyText somePieces = chars!"I HAS A x ITZ SUM OF \"a  b\" AN IM\nVISIBLE SAY\tSO\n" := by
  decide +kernel

private theorem someMovable : ∀ p ∈ somePieces, p.Movable := by
  intro p hp
  simp only [somePieces, List.mem_cons, List.not_mem_nil, or_false] at hp
  rcases hp with rfl | rfl | rfl | rfl | rfl | rfl | rfl | rfl | rfl | rfl <;>
    refine ⟨fun s h => ?_, fun c h => ?_⟩ <;> cases h
  exact ⟨by decide +kernel, rfl⟩

set_option maxRecDepth 8000 in
example : (∃ ts, tokenize (layout somePieces chars!"\n\n") = .ok (.ok ts) ∧ TokensAt 0 1 somePieces ts) ∧
    ∀ p ∈ somePieces, p.Movable := by
  refine ⟨⟨_, rfl, ?_⟩, someMovable⟩
  simp only [somePieces, TokensAt]
  decide +kernel

/-- **C86** The tree is the same up to positions. -/
theorem C86_trees {ps : List Piece} {tail : Str} {ts : List Token} {nodes : Block}
    (h : tokenize (layout ps tail) = .ok (.ok ts)) (hat : TokensAt 0 1 ps ts) (hm : ∀ p ∈ ps, p.Movable)
    (hn : tokenizeAndParse (layout ps tail) = .ok (.ok nodes)) :
    ∃ nodes', tokenizeAndParse (tidyText ps) = .ok (.ok nodes') ∧
      mapBlock Token.unplaced nodes' = mapBlock Token.unplaced nodes := by
  obtain ⟨q, hq⟩ := tokenize_scan h
  exact C65_trees h hat hm (tidy_respaced (prev := none) (Lexed.of_tokens hq hat) (by simp))
    (tidy_breaks_tail none ps) hn

-- the tree of the text above has two statements
set_option maxRecDepth 8000 in
example : ∃ nodes, tokenizeAndParse (layout somePieces chars!"\n\n") = .ok (.ok nodes) ∧ nodes.length = 2 := by
  refine ⟨_, rfl, ?_⟩
  decide +kernel

/-- **C86** No more than one character of white space is left before a lexeme, none before the first. -/
theorem C86_gaps (ps : List Piece) :
    (∀ p ∈ tidy none ps, p.gap.length ≤ 1) ∧ ∀ p, (tidy none ps).head? = some p → p.gap = [] := by
  have h : ∀ (prev : Option Str) (ps : List Piece), ∀ p ∈ tidy prev ps, p.gap.length ≤ 1 := by
    intro prev ps
    induction ps generalizing prev with
    | nil => intro p hp; cases hp
    | cons p ps ih =>
      intro x hx
      rcases List.mem_cons.1 hx with rfl | hx
      · cases prev with
        | none => simp [squeeze]
        | some l =>
          simp only [squeeze]
          repeat' split
          all_goals simp
      · exact ih _ x hx
  refine ⟨h none ps, ?_⟩
  cases ps with
  | nil => intro p hp; cases hp
  | cons p ps => intro x hx; cases hx; rfl

/-- **C86** The text gets shorter, but for the newline at the end. -/
theorem C86_short (ps : List Piece) (tail : Str) : (tidyText ps).length ≤ (layout ps tail).length + 1 := by
  have h : ∀ (prev : Option Str) (ps : List Piece),
      (layout (tidy prev ps) ['\n']).length ≤ (layout ps tail).length + 1 := by
    intro prev ps
    induction ps generalizing prev with
    | nil => simp [tidy, layout]
    | cons p ps ih =>
      have h1 : (squeeze prev p.gap).length ≤ p.gap.length := by
        cases prev with
        | none => simp [squeeze]
        | some l =>
          simp only [squeeze]
          by_cases hg : p.gap = []
          · simp [hg]
          · have := List.length_pos_iff.2 hg
            repeat' split
            all_goals simp
            all_goals omega
      have := ih (some p.lex)
      simp only [tidy, layout, List.length_append]
      omega
  exact h none ps

-- from 66 characters to 49
set_option maxRecDepth 8000 in
example : (layout somePieces chars!"\n\n").length = 66 ∧ (tidyText somePieces).length = 49 := by decide +kernel

/-- **C86** Squeezing white space again changes nothing. -/
theorem C86_again (ps : List Piece) : tidy none (tidy none ps) = tidy none ps := by
  have h : ∀ (prev : Option Str) (g : Str), squeeze prev (squeeze prev g) = squeeze prev g := by
    intro prev g
    cases prev with
    | none => rfl
    | some l =>
      simp only [squeeze]
      by_cases h1 : g = []
      · simp [h1]
      · by_cases h2 : '\n' ∈ g
        · simp [h1, h2]
        · by_cases h3 : l ∈ joiners <;> simp [h1, h2, h3]
  have h' : ∀ (prev : Option Str) (ps : List Piece), tidy prev (tidy prev ps) = tidy prev ps := by
    intro prev ps
    induction ps generalizing prev with
    | nil => rfl
    | cons p ps ih => simp only [tidy, h, ih]
  exact h' none ps

/-- **C86** Texts of the same lexemes, with white space and newlines between the same of them, are squeezed to the same
text. -/
theorem C86_canonical {ps qs : List Piece} (h : SameShape ps qs) : tidyText ps = tidyText qs := by
  have h' : ∀ (prev : Str) (ps qs : List Piece), SameShape.SameShape' ps qs →
      tidy (some prev) ps = tidy (some prev) qs := by
    intro prev ps
    induction ps generalizing prev with
    | nil => intro qs h; cases qs <;> simp_all [SameShape.SameShape', tidy]
    | cons p ps ih =>
      intro qs h
      cases qs with
      | nil => simp [SameShape.SameShape'] at h
      | cons q qs =>
        obtain ⟨⟨h1, h2, h3, h4⟩, h5⟩ := h
        simp only [tidy, ih _ _ h5, squeeze, h1, h2, h3, h4]
  unfold tidyText
  cases ps with
  | nil => cases qs <;> simp_all [SameShape, tidy]
  | cons p ps =>
    cases qs with
    | nil => simp [SameShape] at h
    | cons q qs =>
      obtain ⟨⟨h1, h2⟩, h5⟩ := h
      simp only [tidy, h' _ _ _ h5, squeeze, h1, h2]

private def otherPieces : List Piece :=
  [⟨[], chars!"VISIBLE", .keyword .VISIBLE⟩, ⟨chars!" ", chars!"x", .identifier chars!"x"⟩]

-- `VISIBLE` and `x` with other white space
example : SameShape otherPieces
    [⟨chars!"\n", chars!"VISIBLE", .keyword .VISIBLE⟩, ⟨chars!"\t\t", chars!"x", .identifier chars!"x"⟩] := by
  simp [SameShape, SameShape.SameShape', otherPieces]

end Lol
