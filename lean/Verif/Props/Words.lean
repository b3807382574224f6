import Verif.Parser.WordLemmas
import Verif.Props.LexerTokens
import Verif.Props.ParserBlocks
import Verif.Props.SourceText

/-! # The tokens of programs without errors (C73) -/

namespace Lol

/-! ## C73 -/

/-- **C73** In a program that is parsed without errors, up to the end or to the empty statement where parsing ends,
every statement starts with `HAI`, or is `O RLY?` or `WTF?`, or consists of identifiers, values, `'Z`, `!` and the
keywords that have a use. -/
theorem C73_words {tokens : List Token} {nodes : Block} (h : parse tokens = .ok nodes) (he : errorFreeBlock nodes) :
    ∃ n, stmt tokens n = [] ∧
      ∀ i < n, AllWords (stmt tokens i) ∨ StartsHai (stmt tokens i) ∨ AsksOnly (stmt tokens i) := by
  obtain ⟨L, h1, h2, h3⟩ := (C38_error_free_iff tokens nodes).1 ⟨h, he⟩
  refine ⟨L.length, h3, fun i hi => ?_⟩
  rw [h2 i hi]
  apply h1.words
  simp [List.getD, hi]

example : ∃ tokens nodes, tokenize chars!"O RLY?\nYA RLY\nx'Z y R 1\nOIC" = .ok (.ok tokens) ∧ parse tokens = .ok nodes ∧
    errorFreeBlock nodes := by
  refine ⟨_, _, rfl, rfl, ?_⟩
  simp [errorFreeBlock, Node.ErrorFree, errorFreeMebbes, errorFreeYaRly, errorFreeNoWai]

/-- **C73** So a program with any other token, such as `MAEK`, `IS NOW`, a comment or a symbol, in one of the
statements before the first empty one, is not parsed without errors. -/
theorem C73_other {tokens : List Token} {i : Nat} {t : Token} (hi : ∀ j ≤ i, stmt tokens j ≠ [])
    (ht : t ∈ stmt tokens i) (hw : ¬ t.IsWord) (h1 : ¬ StartsHai (stmt tokens i)) (h2 : ¬ AsksOnly (stmt tokens i))
    {nodes : Block} (h : parse tokens = .ok nodes) : ¬ errorFreeBlock nodes := by
  intro he
  obtain ⟨n, hn, h3⟩ := C73_words h he
  have hlt : i < n := Nat.lt_of_not_le fun hle => hi n hle hn
  rcases h3 i hlt with h4 | h4 | h4
  · exact hw (h4 t ht)
  · exact h1 h4
  · exact h2 h4

-- `x IS NOW A NUMBR` would panic, but in a loop header `IS NOW` is an error
example : ∃ tokens nodes t, tokenize chars!"GTFO\nIM IN YR l UPPIN YR x IS NOW A NUMBR" = .ok (.ok tokens) ∧
    (∀ j ≤ 1, stmt tokens j ≠ []) ∧ t ∈ stmt tokens 1 ∧ t.Is .IS_NOW ∧ ¬ t.IsWord ∧
    ¬ StartsHai (stmt tokens 1) ∧ ¬ AsksOnly (stmt tokens 1) ∧ parse tokens = .ok nodes := by
  refine ⟨_, _, _, rfl, by decide +kernel, List.getElem_mem (n := 5) (by decide +kernel), rfl, ?_, ?_, ?_, rfl⟩
  · exact fun h => h (by decide)
  · rintro ⟨t, r, h, h'⟩
    cases h
    cases h'
  · rintro ⟨t, q, h, -⟩
    cases h

/-- A program that is parsed without errors has the keyword in a statement before the first empty one that does not
start with `HAI`. -/
def Used (k : Keyword) : Prop :=
  ∃ tokens nodes i t, parse tokens = .ok nodes ∧ errorFreeBlock nodes ∧ (∀ j ≤ i, stmt tokens j ≠ []) ∧
    ¬ StartsHai (stmt tokens i) ∧ t ∈ stmt tokens i ∧ t.Is k

private def usedIn (tokens : List Token) (k : Keyword) : Bool :=
  (List.range (split tokens).all.length).any fun i =>
    (List.range (i + 1)).all (fun j => !(stmt tokens j).isEmpty) &&
      ((stmt tokens i).head?.all fun t => decide (¬ t.Is .HAI)) && (stmt tokens i).any fun t => decide (t.Is k)

private theorem used_of {tokens : List Token} {nodes : Block} {ks : List Keyword} (h : parse tokens = .ok nodes)
    (he : errorFreeBlock nodes) (hk : ks.all (usedIn tokens) = true) : ∀ k ∈ ks, Used k := by
  intro k hks
  have h0 := List.all_eq_true.1 hk k hks
  simp only [usedIn, List.any_eq_true, Bool.and_eq_true, List.all_eq_true, decide_eq_true_eq] at h0
  obtain ⟨i, -, ⟨h1, h2⟩, t, h3, h4⟩ := h0
  refine ⟨tokens, nodes, i, t, h, he, fun j hj hn => ?_, ?_, h3, h4⟩
  · have := h1 j (List.mem_range.2 (by omega))
    rw [hn] at this
    cases this
  · rintro ⟨t', r, h5, h6⟩
    rw [h5] at h2
    simp at h2
    exact h2 h6

private theorem used_text {ks : List Keyword} {text : Str} (h : ∃ tokens nodes, tokenize text = .ok (.ok tokens) ∧
    parse tokens = .ok nodes ∧ errorFreeBlock nodes ∧ ks.all (usedIn tokens) = true) : ∀ k ∈ ks, Used k := by
  obtain ⟨tokens, nodes, -, h1, h2, h3⟩ := h
  exact used_of h1 h2 h3

set_option maxRecDepth 8000 in
private theorem used_types : ∀ k ∈ [Keyword.I_HAS_A, .ITZ, .BUKKIT, .NUMBR, .NUMBAR, .YARN, .TROOF], Used k :=
  used_text (text := chars!"I HAS A a ITZ BUKKIT, I HAS A b ITZ NUMBR, I HAS A c ITZ NUMBAR, I HAS A d ITZ YARN
I HAS A e ITZ TROOF") ⟨_, _, rfl, rfl, by simp [errorFreeBlock, Node.ErrorFree], by decide +kernel⟩

set_option maxRecDepth 8000 in
private theorem used_numbers : ∀ k ∈ [Keyword.R, .SUM_OF, .AN, .DIFF_OF, .PRODUKT_OF, .QUOSHUNT_OF, .MOD_OF,
    .BIGGR_OF, .SMALLR_OF], Used k :=
  used_text (text := chars!"b R SUM OF 1 AN DIFF OF 1 AN PRODUKT OF 1 AN QUOSHUNT OF 1 AN 2
b R MOD OF 1 AN BIGGR OF 1 AN SMALLR OF 1 AN 2 ")
    ⟨_, _, rfl, rfl, by simp [errorFreeBlock, Node.ErrorFree], by decide +kernel⟩

set_option maxRecDepth 8000 in
private theorem used_truths : ∀ k ∈ [Keyword.BOTH_SAEM, .BOTH_OF, .EITHER_OF, .WON_OF, .ALL_OF, .NOT, .DIFFRINT, .MKAY],
    Used k :=
  used_text (text := chars!"c R BOTH SAEM 1 AN BOTH OF 1 AN EITHER OF 1 AN WON OF 1 AN 2
ALL OF NOT b AN DIFFRINT 1 AN 2 MKAY")
    ⟨_, _, rfl, rfl, by simp [errorFreeBlock, Node.ErrorFree], by decide +kernel⟩

set_option maxRecDepth 8000 in
private theorem used_statements : ∀ k ∈ [Keyword.HAS_A, .SRS, .VISIBLE, .SMOOSH, .GIMMEH, .FOUND_YR, .I_IZ, .YR,
    .KTHXBYE], Used k :=
  used_text (text := chars!"a HAS A b ITZ SRS c, VISIBLE SMOOSH b AN c MKAY !, GIMMEH a
FOUND YR a, I IZ a YR b MKAY, KTHXBYE")
    ⟨_, _, rfl, rfl, by simp [errorFreeBlock, Node.ErrorFree], by decide +kernel⟩

private theorem used_conditional : ∀ k ∈ [Keyword.O_RLY, .YA_RLY, .MEBBE, .NO_WAI, .OIC, .GTFO], Used k :=
  used_text (text := chars!"O RLY?, YA RLY, GTFO, MEBBE b, GTFO, NO WAI, GTFO, OIC")
    ⟨_, _, rfl, rfl, by simp [errorFreeBlock, Node.ErrorFree, errorFreeYaRly, errorFreeNoWai, errorFreeMebbes],
      by decide +kernel⟩

set_option maxRecDepth 8000 in
private theorem used_loop : ∀ k ∈ [Keyword.IM_IN_YR, .UPPIN, .NERFIN, .TIL, .WILE, .IM_OUTTA_YR], Used k :=
  used_text (text := chars!"IM IN YR l UPPIN YR a TIL b, GTFO, IM OUTTA YR l
IM IN YR l NERFIN YR a WILE b, GTFO, IM OUTTA YR l")
    ⟨_, _, rfl, rfl, by simp [errorFreeBlock, Node.ErrorFree], by decide +kernel⟩

private theorem used_function : ∀ k ∈ [Keyword.HOW_IZ_I, .IF_U_SAY_SO], Used k :=
  used_text (text := chars!"HOW IZ I f YR a, GTFO, IF U SAY SO")
    ⟨_, _, rfl, rfl, by simp [errorFreeBlock, Node.ErrorFree], by decide +kernel⟩

private theorem used_switch : ∀ k ∈ [Keyword.WTF, .OMG, .OMGWTF], Used k :=
  used_text (text := chars!"WTF?, OMG 1, GTFO, OMGWTF, GTFO, OIC")
    ⟨_, _, rfl, rfl, by simp [errorFreeBlock, Node.ErrorFree, errorFreeOmgs, errorFreeOmgWtf], by decide +kernel⟩

-- These two do not come from source texts (C11, C48).
private theorem used_tokens : ∀ k ∈ [Keyword.ANY_OF, .NOOB], Used k :=
  used_of (tokens := [onLine 1 (.keyword .I_HAS_A), onLine 1 (.identifier ['a']), onLine 1 (.keyword .ITZ),
    onLine 1 (.keyword .ANY_OF), onLine 1 (.keyword .NOOB), onLine 1 (.keyword .MKAY)]) rfl
    (by simp [errorFreeBlock, Node.ErrorFree]) (by decide +kernel)

/-- **C73** The keywords that have a use are all the others. -/
theorem C73_used (k : Keyword) : Used k ↔ k ∉ unusedKeywords := by
  constructor
  · rintro ⟨tokens, nodes, i, t, h1, h2, h3, h4, h5, h6⟩ hk
    have hw : ¬ t.IsWord := by
      have h6 : t.tokenType = _ := h6
      simpa [Token.IsWord, h6] using hk
    refine C73_other h3 h5 hw h4 ?_ h1 h2
    rintro ⟨u, q, h7, h8, h9⟩
    rw [h7] at h5
    simp only [List.mem_cons, List.not_mem_nil, or_false] at h5
    rcases h5 with rfl | rfl
    · have h6 : t.tokenType = _ := h6
      rcases h8 with h8 | h8
      · have h8 : t.tokenType = _ := h8
        rw [h6] at h8
        cases h8
        simp [unusedKeywords] at hk
      · have h8 : t.tokenType = _ := h8
        rw [h6] at h8
        cases h8
        simp [unusedKeywords] at hk
    · have h6 : t.tokenType = _ := h6
      have h9 : t.tokenType = _ := h9
      rw [h6] at h9
      cases h9
  · intro hk
    have key : ∀ k ∈ Keyword.all, k ∉ unusedKeywords →
        k ∈ [Keyword.I_HAS_A, .ITZ, .BUKKIT, .NUMBR, .NUMBAR, .YARN, .TROOF] ∨
        k ∈ [Keyword.R, .SUM_OF, .AN, .DIFF_OF, .PRODUKT_OF, .QUOSHUNT_OF, .MOD_OF, .BIGGR_OF, .SMALLR_OF] ∨
        k ∈ [Keyword.BOTH_SAEM, .BOTH_OF, .EITHER_OF, .WON_OF, .ALL_OF, .NOT, .DIFFRINT, .MKAY] ∨
        k ∈ [Keyword.HAS_A, .SRS, .VISIBLE, .SMOOSH, .GIMMEH, .FOUND_YR, .I_IZ, .YR, .KTHXBYE] ∨
        k ∈ [Keyword.O_RLY, .YA_RLY, .MEBBE, .NO_WAI, .OIC, .GTFO] ∨
        k ∈ [Keyword.IM_IN_YR, .UPPIN, .NERFIN, .TIL, .WILE, .IM_OUTTA_YR] ∨
        k ∈ [Keyword.HOW_IZ_I, .IF_U_SAY_SO] ∨ k ∈ [Keyword.WTF, .OMG, .OMGWTF] ∨ k ∈ [Keyword.ANY_OF, .NOOB] := by
      decide +kernel
    rcases key k k.mem_all hk with h | h | h | h | h | h | h | h | h
    · exact used_types k h
    · exact used_numbers k h
    · exact used_truths k h
    · exact used_statements k h
    · exact used_conditional k h
    · exact used_loop k h
    · exact used_function k h
    · exact used_switch k h
    · exact used_tokens k h

-- `MAEK`, `IS NOW`, `A`, `BTW`, `OBTW`, `TLDR`, `WIN`, `FAIL` and `HAI` are not
example : ¬ Used .MAEK ∧ Used .ANY_OF ∧ Used .SRS := by simp [C73_used, unusedKeywords]

/-- **C73** A carriage return outside strings and comments is a token of its own. -/
theorem C73_carriage_return {code post : Str} {p : Position} {ts : List Token}
    (h : tokenize code = .ok (.ok ts)) (hs : LexemeStart code ('\r' :: post) p) :
    TokenAt ts p ['\r'] (.symbol ['\r']) := by
  refine lexeme_found (lex := ['\r']) (post := post) h hs ?_
  refine .symbol '\r' post (by decide) (by decide) (by decide) (by decide) (by decide) (by decide)
    (not_prefix_head (by decide)) (not_prefix_head (by decide)) ?_
  intro lex r n he hn
  obtain ⟨c, s, hl, hh, _⟩ := hn.head
  rw [hl] at he
  simp at he
  rw [← he.1] at hh
  revert hh
  decide

example : ∃ ts p, tokenize chars!"x\r\ny" = .ok (.ok ts) ∧ LexemeStart chars!"x\r\ny" ('\r' :: chars!"\ny") p :=
  ⟨_, _, rfl, (found_at 1 chars!"x" rfl (by decide +kernel) rfl (by decide +kernel)).1⟩

/-- **C73** So no program with Windows line ends is parsed without errors: if there is a carriage return outside
strings and comments, no statement is empty and none starts with `HAI`, then `parse` panics or the tree has
errors. -/
theorem C73_windows {code post : Str} {p : Position} {ts : List Token}
    (h : tokenize code = .ok (.ok ts)) (hs : LexemeStart code ('\r' :: post) p)
    (h1 : ∀ st ∈ (split ts).all, st ≠ [] ∧ ¬ StartsHai st) {nodes : Block} (hp : parse ts = .ok nodes) :
    ¬ errorFreeBlock nodes := by
  have ht := C73_carriage_return h hs
  generalize hu : Token.mk (.symbol ['\r']) ⟨p, p.afterLexeme ['\r']⟩ = u
  have hty : u.tokenType = .symbol ['\r'] := by rw [← hu]
  have hmem : u ∈ ts := by rw [← hu]; exact ht
  have hc : u ∈ content ts := List.mem_filter.2 ⟨hmem, by simp [Token.isSeparator, hty]⟩
  rw [← split_tokens, Stmts.tokens, ← List.flatten_cons] at hc
  obtain ⟨st, h2, h3⟩ := List.mem_flatten.1 hc
  have h2' : st ∈ (split ts).all := h2
  obtain ⟨i, hi, rfl⟩ := List.getElem_of_mem h2'
  have hst : ∀ j (hj : j < (split ts).all.length), stmt ts j = (split ts).all[j] := by
    intro j hj
    simp [stmt, List.getD_eq_getElem?_getD, hj]
  rw [← hst i hi] at h3
  refine C73_other (i := i) (t := u) (fun j hj => ?_) h3 ?_ ?_ ?_ hp
  · rw [hst j (by omega)]
    exact (h1 _ (List.getElem_mem _)).1
  · simp [Token.IsWord, hty]
  · rw [hst i hi]
    exact (h1 _ (List.getElem_mem _)).2
  · rintro ⟨a, q, h4, h5, h6⟩
    rw [h4] at h3
    simp only [List.mem_cons, List.not_mem_nil, or_false] at h3
    rcases h3 with rfl | rfl
    · rcases h5 with h5 | h5 <;> (have h5 : u.tokenType = _ := h5; rw [hty] at h5; cases h5)
    · have h6 : u.tokenType = _ := h6
      rw [hty] at h6
      cases h6

-- the second line of a program
example : ∃ ts nodes p, tokenize chars!"GTFO\r\nVISIBLE \"a\r\nb\"\r\n" = .ok (.ok ts) ∧
    LexemeStart chars!"GTFO\r\nVISIBLE \"a\r\nb\"\r\n" chars!"\r\nVISIBLE \"a\r\nb\"\r\n" p ∧
    (∀ st ∈ (split ts).all, st ≠ [] ∧ ¬ StartsHai st) ∧ parse ts = .ok nodes := by
  refine ⟨_, _, (Position.first.afterLexeme chars!"GTFO"), rfl,
    ⟨⟨_, .tok chars!"GTFO" _ (.keyword .GTFO) _ _ _ _ ?_ (.refl _ _)⟩, by decide, ?_⟩, ?_, rfl⟩
  · refine .keyword .GTFO _ ?_ (by decide) (by decide) (by decide) (by decide) (by decide)
    have : ∀ j ∈ Keyword.all, j.ctorIdx < Keyword.GTFO.ctorIdx →
        ¬ j.spelling <+: Keyword.GTFO.spelling ++ chars!"\r\nVISIBLE \"a\r\nb\"\r\n" := by decide +kernel
    exact fun j => this j j.mem_all
  · intro c r h
    cases h
    decide
  · intro st hst
    refine ⟨?_, ?_⟩
    · rintro rfl
      revert hst
      decide +kernel
    · rintro ⟨t, r, rfl, ht⟩
      rcases List.mem_cons.1 hst with h | hst
      · cases h; cases ht
      · rcases List.mem_cons.1 hst with h | hst
        · cases h; cases ht
        · cases hst

/-- **C73** A program that is parsed without errors, and what becomes of it with Windows line ends: errors, a panic. -/
theorem C73_line_ends :
    (∃ nodes nodes', tokenizeAndParse chars!"GTFO\nVISIBLE x\nGTFO" = .ok (.ok nodes) ∧ errorFreeBlock nodes ∧
      tokenizeAndParse chars!"GTFO\r\nVISIBLE x\r\nGTFO" = .ok (.ok nodes') ∧ ¬ errorFreeBlock nodes') ∧
    (∃ nodes, tokenizeAndParse chars!"x\nGTFO" = .ok (.ok nodes) ∧ errorFreeBlock nodes) ∧
    tokenizeAndParse chars!"x\r\nGTFO" = .panic .unreachableStatement := by
  refine ⟨⟨_, _, rfl, ?_, rfl, ?_⟩, ⟨_, rfl, ?_⟩, rfl⟩ <;> simp [errorFreeBlock, Node.ErrorFree]

end Lol
