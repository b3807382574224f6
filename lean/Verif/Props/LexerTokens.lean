import Verif.Props.LexerPositions

/-!
# Properties of the tokenizer: which token is found (C10 to C19)

Statements are about the token at a lexeme start: `LexemeStart code rest p` says that the tokenizer looks
for a lexeme at position `p`, where `rest` is the remaining source.
-/

namespace Lol

/-- There is a token of type `ty` whose range starts at `p` and is as long as `lex`. -/
def TokenAt (ts : List Token) (p : Position) (lex : Str) (ty : TokenType) : Prop :=
  { tokenType := ty, range := { start := p, stop := p.afterLexeme lex } } ∈ ts

/-- There is a token of type `ty` whose range starts at `p`. -/
def TypeAt (ts : List Token) (p : Position) (ty : TokenType) : Prop :=
  ∃ t ∈ ts, t.range.start = p ∧ t.tokenType = ty

/-- Every token is found at a lexeme start, and is the one of the lexeme grammar. -/
theorem token_lexemeStart {code : Str} {ts : List Token} (h : tokenize code = .ok (.ok ts)) {t : Token}
    (ht : t ∈ ts) : ∃ lex post, LexemeStart code (lex ++ post) t.range.start ∧
      Lexeme lex post t.tokenType ∧ t.range.stop = t.range.start.afterLexeme lex := by
  obtain ⟨q, hq⟩ := tokenize_scan h
  obtain ⟨pre, lex, post, before, h1, h2, h3, h4, h5, h6, h7⟩ := scan_token hq ht
  refine ⟨lex, post, ⟨⟨before, h3⟩, by simp [h2.ne_nil], ?_⟩, h2, h5⟩
  obtain ⟨c, r, hc, hw⟩ := h2.head_not_ws
  intro d s he
  rw [hc] at he
  simp at he
  exact he.1 ▸ hw

/-- A lexeme of the grammar at a lexeme start is found. -/
theorem lexeme_found {code lex post : Str} {p : Position} {ts : List Token} {ty : TokenType}
    (h : tokenize code = .ok (.ok ts)) (hs : LexemeStart code (lex ++ post) p)
    (hl : Lexeme lex post ty) : TokenAt ts p lex ty := by
  obtain ⟨⟨before, hb⟩, hne, hws⟩ := hs
  obtain ⟨lex2, post2, ty2, after, k1, k2, k3⟩ := token_at h hb hne hws
  obtain ⟨rfl, rfl, rfl⟩ := hl.unique k2 k1
  unfold TokenAt
  rw [k3]; simp

/-- The remaining source at a lexeme start is determined by the position. -/
theorem lexemeStart_rest {code r1 r2 : Str} {p : Position} (h1 : LexemeStart code r1 p)
    (h2 : LexemeStart code r2 p) : r1 = r2 := by
  obtain ⟨⟨_, h1⟩, _⟩ := h1
  obtain ⟨⟨_, h2⟩, _⟩ := h2
  obtain ⟨pre, g1, g2, g3⟩ := scan_prefix h1
  obtain ⟨pre', g1', g2', g3'⟩ := scan_prefix h2
  have hlen : pre.length = pre'.length := by omega
  rw [g1] at g1'
  exact (List.append_inj g1' hlen).2

/-- The type found at a lexeme start is the one of the lexeme grammar. -/
theorem typeAt_iff {code rest : Str} {p : Position} {ts : List Token}
    (h : tokenize code = .ok (.ok ts)) (hs : LexemeStart code rest p) (ty : TokenType) :
    TypeAt ts p ty ↔ ∃ lex post, rest = lex ++ post ∧ Lexeme lex post ty := by
  constructor
  · rintro ⟨t, ht, rfl, rfl⟩
    obtain ⟨lex, post, h1, h2, h3⟩ := token_lexemeStart h ht
    exact ⟨lex, post, lexemeStart_rest hs h1, h2⟩
  · rintro ⟨lex, post, rfl, hl⟩
    exact ⟨_, lexeme_found h hs hl, rfl, rfl⟩

/-- For the examples: token number `i` stands where the text `rest` remains. -/
theorem found_at {code : Str} {ts : List Token} (i : Nat) (pre : Str) {rest : Str} (h : tokenize code = .ok (.ok ts))
    (hi : i < ts.length) (hc : code = pre ++ rest) (hp : ts[i].range.start.chars = pre.length) :
    LexemeStart code rest ts[i].range.start ∧ TypeAt ts ts[i].range.start ts[i].tokenType := by
  obtain ⟨lex, post, h1, h2, h3⟩ := token_lexemeStart h (List.getElem_mem hi)
  obtain ⟨before, g⟩ := h1.1
  obtain ⟨pre', g1, g2, g3⟩ := scan_prefix g
  have hlen : pre.length = pre'.length := by
    have : Position.first.chars = 0 := rfl
    omega
  rw [hc] at g1
  rw [(List.append_inj g1 hlen).2]
  exact ⟨h1, _, List.getElem_mem hi, rfl, rfl⟩

/-! ## C10, C11: keywords -/

/-- The keywords whose texts are recognised as something else before keywords are tried. -/
def otherwiseRead : List Keyword := [.BTW, .OBTW, .NOOB, .WIN, .FAIL]

/-- **C10** At a lexeme start the token is keyword `k` iff `k` is the first keyword in declaration order
whose text starts the remaining source (and is not one of the five texts read as a comment or literal). -/
theorem C10_keyword_first_match {code rest : Str} {p : Position} {ts : List Token}
    (h : tokenize code = .ok (.ok ts)) (hs : LexemeStart code rest p) (k : Keyword) :
    TypeAt ts p (.keyword k) ↔
      k.spelling <+: rest ∧ (∀ j : Keyword, j.ctorIdx < k.ctorIdx → ¬ j.spelling <+: rest) ∧ k ∉ otherwiseRead := by
  rw [typeAt_iff h hs]
  constructor
  · rintro ⟨lex, post, rfl, hl⟩
    cases hl with
    | keyword k rest h2 n1 n2 n3 n4 n5 =>
      exact ⟨⟨post, rfl⟩, h2, by simp [otherwiseRead, n1, n2, n3, n4, n5]⟩
  · rintro ⟨⟨post, rfl⟩, h2, hn⟩
    simp [otherwiseRead] at hn
    exact ⟨k.spelling, post, rfl, .keyword k post h2 hn.1 hn.2.1 hn.2.2.2.1 hn.2.2.2.2 hn.2.2.1⟩

example : ∃ ts p, tokenize chars!"x OMGWTF" = .ok (.ok ts) ∧ LexemeStart chars!"x OMGWTF" chars!"OMGWTF" p ∧
    TypeAt ts p (.keyword .OMGWTF) :=
  ⟨_, _, rfl, found_at 1 chars!"x " rfl (by decide +kernel) rfl (by decide +kernel)⟩

/-- **C10** The match is the longest one, except that `AN` hides `ANY OF`. -/
theorem C10_longest_match {code rest : Str} {p : Position} {ts : List Token}
    (h : tokenize code = .ok (.ok ts)) (hs : LexemeStart code rest p) {k j : Keyword}
    (hk : TypeAt ts p (.keyword k)) (hj : j.spelling <+: rest) :
    j.spelling.length ≤ k.spelling.length ∨ (k = .AN ∧ j = .ANY_OF) := by
  obtain ⟨lex, post, rfl, hl⟩ := (typeAt_iff h hs _).1 hk
  cases hl with
  | keyword k rest h2 n1 n2 n3 n4 n5 =>
    by_cases hb : j.ctorIdx < k.ctorIdx
    · exact absurd hj (h2 j hb)
    -- `j` comes after `k` in the declaration order: only `ANY OF` after `AN` extends `k`
    have hcmp := Keyword.comparable_of (j := k) (k := j) ⟨post, rfl⟩ hj
    clear h2 hj hs h hk
    revert hb; revert hcmp
    have table : ∀ k' ∈ Keyword.all, ∀ j' ∈ Keyword.all, k'.comparable j' = true → ¬ j'.ctorIdx < k'.ctorIdx →
        j'.spelling.length ≤ k'.spelling.length ∨ (k' = .AN ∧ j' = .ANY_OF) := by decide +kernel
    exact table k k.mem_all j j.mem_all

example : ∃ ts, tokenize chars!"OMGWTF OMG ANT ANY OF" = .ok (.ok ts) ∧
    ts.map (·.tokenType) = [.keyword .OMGWTF, .keyword .OMG, .keyword .AN, .identifier chars!"T",
      .keyword .AN, .identifier chars!"Y", .identifier chars!"OF"] := by
  refine ⟨_, rfl, ?_⟩
  decide +kernel

/-- **C11** Keywords that no source ever yields as Keyword tokens. -/
theorem C11_never_emitted {code : Str} {ts : List Token} (h : tokenize code = .ok (.ok ts)) {t : Token}
    (ht : t ∈ ts) {k : Keyword} (hk : t.tokenType = .keyword k) :
    k ≠ .BTW ∧ k ≠ .OBTW ∧ k ≠ .NOOB ∧ k ≠ .WIN ∧ k ≠ .FAIL ∧ k ≠ .ANY_OF := by
  obtain ⟨lex, post, _, h2, _⟩ := token_lexemeStart h ht
  rw [hk] at h2
  cases h2 with
  | keyword k rest h2 n1 n2 n3 n4 n5 =>
    refine ⟨n1, n2, n5, n3, n4, ?_⟩
    rintro rfl
    exact h2 .AN (by decide) ⟨chars!"Y OF" ++ post, rfl⟩

example : ∃ ts, tokenize chars!"ANY OF" = .ok (.ok ts) ∧ ∃ t ∈ ts, t.tokenType = .keyword .AN :=
  ⟨_, rfl, _, .head _, rfl⟩

/-- **C11** Every other keyword is emitted: its own text is tokenized to it. -/
theorem C11_others_emitted (k : Keyword)
    (hk : k ∉ [Keyword.BTW, .OBTW, .NOOB, .WIN, .FAIL, .ANY_OF]) :
    ∃ t, tokenize k.spelling = .ok (.ok [t]) ∧ t.tokenType = .keyword k := by
  have table : ∀ k ∈ Keyword.all, k ∉ [Keyword.BTW, .OBTW, .NOOB, .WIN, .FAIL, .ANY_OF] →
      tokenize k.spelling = .ok (.ok [{ tokenType := .keyword k, range :=
        { start := .first, stop := Position.first.afterLexeme k.spelling } }]) := by decide +kernel
  exact ⟨_, table k k.mem_all hk, rfl⟩

example : Keyword.OMGWTF ∉ [Keyword.BTW, .OBTW, .NOOB, .WIN, .FAIL, .ANY_OF] := by decide

/-- **C11** as asked (every keyword can be emitted) is false. -/
theorem C11_not_all : ¬ ∀ k : Keyword, ∃ code ts t, tokenize code = .ok (.ok ts) ∧ t ∈ ts ∧
    t.tokenType = .keyword k := by
  intro h
  obtain ⟨code, ts, t, h1, h2, h3⟩ := h .ANY_OF
  exact (C11_never_emitted h1 h2 h3).2.2.2.2.2 rfl

/-! ## C12: identifiers -/

private theorem mem_takeWhile_imp {f : Char → Bool} {l : Str} {c : Char} (h : c ∈ l.takeWhile f) :
    f c = true := by
  induction l with
  | nil => simp at h
  | cons d l ih =>
    rw [List.takeWhile_cons] at h
    split at h
    · rcases List.mem_cons.1 h with rfl | h
      · assumption
      · exact ih h
    · simp at h

/-- **C12** At a lexeme start the token is `Identifier name` iff `name` is the longest run of letters and
underscores there, is not empty, and no keyword text starts the remaining source. -/
theorem C12_identifier_iff {code rest : Str} {p : Position} {ts : List Token}
    (h : tokenize code = .ok (.ok ts)) (hs : LexemeStart code rest p) (name : Str) :
    TypeAt ts p (.identifier name) ↔
      name = rest.takeWhile (fun c => decide (IsIdent c)) ∧ name ≠ [] ∧
        ∀ k : Keyword, ¬ k.spelling <+: rest := by
  rw [typeAt_iff h hs]
  constructor
  · rintro ⟨lex, post, rfl, hl⟩
    cases hl with
    | identifier name rest h1 h2 h3 h4 =>
      refine ⟨?_, h1, h4⟩
      rw [List.takeWhile_append_of_pos (fun c hc => by simpa using h2 c hc)]
      cases post with
      | nil => simp
      | cons c r => simp [h3 c r rfl]
  · rintro ⟨rfl, h2, h3⟩
    refine ⟨_, rest.dropWhile (fun c => decide (IsIdent c)), List.takeWhile_append_dropWhile.symm, ?_⟩
    refine .identifier _ _ h2 ?_ ?_ (by rw [List.takeWhile_append_dropWhile]; exact h3)
    · intro c hc
      simpa using mem_takeWhile_imp hc
    · intro c r hd
      have := List.head?_dropWhile_not (fun c => decide (IsIdent c)) rest
      rw [hd] at this
      simpa using this

example : ∃ ts p, tokenize chars!"x ka_t9" = .ok (.ok ts) ∧ LexemeStart chars!"x ka_t9" chars!"ka_t9" p ∧
    TypeAt ts p (.identifier chars!"ka_t") :=
  ⟨_, _, rfl, found_at 1 chars!"x " rfl (by decide +kernel) rfl (by decide +kernel)⟩

/-- **C12** The range of the identifier token is exactly the name. -/
theorem C12_identifier_range {code : Str} {ts : List Token} (h : tokenize code = .ok (.ok ts))
    {t : Token} (ht : t ∈ ts) {name : Str} (hn : t.tokenType = .identifier name) :
    t.range.stop = t.range.start.afterLexeme name := by
  obtain ⟨lex, post, _, h2, h3⟩ := token_lexemeStart h ht
  rw [hn] at h2
  cases h2 with
  | identifier => exact h3

example : ∃ ts, tokenize chars!"kitty_Kat9" = .ok (.ok ts) ∧
    ts.map (·.tokenType) = [.identifier chars!"kitty_Kat", .symbol chars!"9"] := by
  refine ⟨_, rfl, ?_⟩
  decide +kernel

/-! ## C13, C14: numbers -/

/-- **C13** At a lexeme start the token is `Int n` iff the remaining source is an optional sign, digits with
value `n` within `i32`, and a further character that is neither a digit nor a dot. -/
theorem C13_int_iff {code rest : Str} {p : Position} {ts : List Token}
    (h : tokenize code = .ok (.ok ts)) (hs : LexemeStart code rest p) (n : Int) :
    TypeAt ts p (.value (.number (.int n))) ↔
      ∃ sgn ds c post, rest = sgn ++ ds ++ c :: post ∧ IsSign sgn ∧ ds ≠ [] ∧ (∀ d ∈ ds, IsDigit d) ∧
        ¬ IsDigit c ∧ c ≠ '.' ∧ n = signedVal sgn ds ∧ InI32 n := by
  rw [typeAt_iff h hs]
  constructor
  · rintro ⟨lex, post, rfl, hl⟩
    cases hl with
    | number lex rest n hn =>
      cases hn with
      | int sgn ds c rest h1 h2 h3 h4 h5 h6 => exact ⟨sgn, ds, c, rest, rfl, h1, h2, h3, h5, h6, rfl, h4⟩
  · rintro ⟨sgn, ds, c, post, rfl, h1, h2, h3, h5, h6, rfl, h4⟩
    exact ⟨_, _, rfl, .number _ _ _ (.int sgn ds c post h1 h2 h3 h4 h5 h6)⟩

example : ∃ ts p, tokenize chars!"x -12," = .ok (.ok ts) ∧ LexemeStart chars!"x -12," chars!"-12," p ∧
    TypeAt ts p (.value (.number (.int (-12)))) :=
  ⟨_, _, rfl, found_at 1 chars!"x " rfl (by decide +kernel) rfl (by decide +kernel)⟩

/-- **C13** The lexeme is exactly the sign and the digits. -/
theorem C13_int_range {code sgn ds post : Str} {c : Char} {p : Position} {ts : List Token}
    (h : tokenize code = .ok (.ok ts)) (hs : LexemeStart code (sgn ++ ds ++ c :: post) p)
    (h1 : IsSign sgn) (h2 : ds ≠ []) (h3 : ∀ d ∈ ds, IsDigit d) (h4 : ¬ IsDigit c) (h5 : c ≠ '.')
    (h6 : InI32 (signedVal sgn ds)) :
    TokenAt ts p (sgn ++ ds) (.value (.number (.int (signedVal sgn ds)))) :=
  lexeme_found h hs (.number _ _ _ (.int sgn ds c post h1 h2 h3 h6 h4 h5))

example : ∃ ts, tokenize chars!"-2147483648 2147483648 +7," = .ok (.ok ts) ∧
    ts.map (·.tokenType) = [.value (.number (.int (-2147483648))), .symbol ['2'],
      .value (.number (.int 147483648)), .value (.number (.int 7)), .comma] := by
  refine ⟨_, rfl, ?_⟩
  decide +kernel

/-- **C14** as asked is false: a literal at the very end of the source is not a number, whatever it is. Its
first character is always read as a one-character Symbol. -/
theorem C14_number_at_end {code sgn ds : Str} {p : Position} {ts : List Token}
    (h : tokenize code = .ok (.ok ts)) (hs : LexemeStart code (sgn ++ ds) p) (h1 : IsSign sgn)
    (h3 : ∀ d ∈ ds, IsDigit d) : ∃ c r, sgn ++ ds = c :: r ∧ TokenAt ts p [c] (.symbol [c]) := by
  obtain ⟨c, r, hc⟩ := List.exists_cons_of_ne_nil hs.2.1
  refine ⟨c, r, hc, ?_⟩
  have hhead : IsDigit c ∨ c = '+' ∨ c = '-' ∨ c = '.' := by
    rcases h1 with rfl | rfl | rfl
    · rw [List.nil_append] at hc
      exact .inl (h3 c (by simp [hc]))
    · simp at hc; exact .inr (.inl hc.1.symm)
    · simp at hc; exact .inr (.inr (.inl hc.1.symm))
  obtain ⟨f1, f2, f3, f4, f5, f6, f7⟩ := numHead_facts hhead
  have hdot : c ≠ '.' := by
    rcases h1 with rfl | rfl | rfl
    · rw [List.nil_append] at hc
      exact (h3 c (by simp [hc])).not_sign.2.2
    · simp at hc; rw [← hc.1]; decide
    · simp at hc; rw [← hc.1]; decide
  have hasc : IsAscii c := by
    rcases hhead with hh | rfl | rfl | rfl
    · exact hh.ascii
    all_goals decide
  have hnone : parseNumber (c :: r) = .ok none := hc ▸ parseNumber_eof h1 h3
  rw [hc] at hs
  refine lexeme_found h (lex := [c]) (post := r) hs ?_
  refine .symbol c r hasc f1 f2 f3 f4 f7 (not_prefix_head (Ne.symm f5)) (not_prefix_head (Ne.symm hdot)) ?_
  intro lex post n he hn
  rw [he, parseNumber_complete hn] at hnone
  simp at hnone

example : ∃ ts p, tokenize chars!"x -12" = .ok (.ok ts) ∧ LexemeStart chars!"x -12" (chars!"-" ++ chars!"12") p ∧ IsSign chars!"-" ∧
    ∀ d ∈ chars!"12", IsDigit d :=
  ⟨_, _, rfl, (found_at 1 chars!"x " rfl (by decide +kernel) rfl (by decide +kernel)).1, .inr (.inr rfl),
    by decide⟩

private theorem symbols_of_digits (ds : Str) (hd : ∀ d ∈ ds, IsDigit d) (p : Position) :
    ∃ ts, run ds p = .ok (.ok ts) ∧ ts.map (·.tokenType) = ds.map (fun c => .symbol [c]) := by
  induction ds generalizing p with
  | nil => exact ⟨[], run_nil p, rfl⟩
  | cons c r ih =>
    have hc := hd c (by simp)
    obtain ⟨f1, f2, f3, f4, f5, f6, f7⟩ := numHead_facts (c := c) (.inl hc)
    have hnone : parseNumber ([] ++ c :: r) = .ok none := parseNumber_eof (.inl rfl) hd
    have hl : Lexeme [c] r (.symbol [c]) := by
      refine .symbol c r hc.ascii f1 f2 f3 f4 f7 (not_prefix_head (Ne.symm f5))
        (not_prefix_head (Ne.symm hc.not_sign.2.2)) ?_
      intro lex post n he hn
      rw [List.nil_append, he, parseNumber_complete hn] at hnone
      simp at hnone
    obtain ⟨ts, h1, h2⟩ := ih (fun d h => hd d (by simp [h])) (p.afterLexeme [c])
    refine ⟨_, by rw [← List.singleton_append, run_lexeme hl, h1]; rfl, ?_⟩
    simp [h2]

/-- **C14** A source that is a string of digits yields one Symbol per digit, and no Number. -/
theorem C14_digits_alone (ds : Str) (hd : ∀ d ∈ ds, IsDigit d) :
    ∃ ts, tokenize ds = .ok (.ok ts) ∧ ts.map (·.tokenType) = ds.map (fun c => .symbol [c]) :=
  symbols_of_digits ds hd .first

example : ∀ d ∈ chars!"907", IsDigit d := by decide

/-- **C14** is false as asked. -/
theorem C14_not_general : ¬ ∀ ds : Str, ds ≠ [] → (∀ d ∈ ds, IsDigit d) →
    ∃ ts n, tokenize ds = .ok (.ok ts) ∧ ts.map (·.tokenType) = [.value (.number n)] := by
  intro h
  obtain ⟨ts, n, h1, h2⟩ := h chars!"7" (by simp) (by decide)
  obtain ⟨ts', h1', h2'⟩ := C14_digits_alone chars!"7" (by decide)
  rw [h1] at h1'
  simp at h1'
  rw [h1', h2'] at h2
  simp at h2

/-- **C14**, part that holds: a literal followed by any character (not a digit, and not a dot for integers)
is a Number; out-of-range integers excepted. Missing: literals at the end of the source, refuted above. -/
theorem C14_number_before_char_partial {code lex post : Str} {p : Position} {ts : List Token}
    (h : tokenize code = .ok (.ok ts)) (hs : LexemeStart code (lex ++ post) p) :
    (∀ sgn ds c r, lex = sgn ++ ds → post = c :: r → IsSign sgn → ds ≠ [] → (∀ d ∈ ds, IsDigit d) →
      ¬ IsDigit c → c ≠ '.' → InI32 (signedVal sgn ds) →
      TokenAt ts p lex (.value (.number (.int (signedVal sgn ds))))) ∧
    (∀ sgn ds es c r x, lex = sgn ++ ds ++ '.' :: es → post = c :: r → IsSign sgn → ds ++ es ≠ [] →
      (∀ d ∈ ds, IsDigit d) → (∀ d ∈ es, IsDigit d) → ¬ IsDigit c → FloatVal sgn ds es x →
      TokenAt ts p lex (.value (.number (.float x)))) := by
  constructor
  · rintro sgn ds c r rfl rfl h1 h2 h3 h4 h5 h6
    exact C13_int_range h hs h1 h2 h3 h4 h5 h6
  · rintro sgn ds es c r x rfl rfl h1 h2 h3 h4 h5 h6
    exact lexeme_found h hs (.number _ _ _ (.float sgn ds es c r x h1 h2 h3 h4 h5 h6))

example : ∃ ts, tokenize chars!"1.5.5 12" = .ok (.ok ts) ∧
    ts.map (·.tokenType) = [.value (.number (.float ⟨false, 0x3FC00000⟩)), .value (.number (.float ⟨false, 0x3F000000⟩)),
      .symbol ['1'], .symbol ['2']] := by
  refine ⟨_, rfl, ?_⟩
  decide +kernel

/-! ## C15: strings -/

/-- **C15** Every text after an opening quote either has a closing quote (the first quote not directly
preceded by a colon) or has only colon-escaped quotes, and not both. -/
theorem C15_closed_or_open (cs : Str) :
    ((∃ body after, cs = body ++ '"' :: after ∧ StringBody body) ∨ QuotesEscaped cs) ∧
    ¬ ((∃ body after, cs = body ++ '"' :: after ∧ StringBody body) ∧ QuotesEscaped cs) := by
  constructor
  · rcases strScan_cases 0 cs with ⟨b, a, h1, h2, _⟩ | ⟨h, _⟩
    · exact .inl ⟨b, a, h1, h2⟩
    · exact .inr h
  · rintro ⟨⟨b, a, rfl, h⟩, h'⟩
    exact body_not_escaped h h'

/-- **C15** An ASCII string literal yields the String token with the text between the quotes. -/
theorem C15_string_closed {code body after : Str} {p : Position} {ts : List Token}
    (h : tokenize code = .ok (.ok ts)) (hs : LexemeStart code ('"' :: (body ++ '"' :: after)) p)
    (hb : StringBody body) (ha : ∀ c ∈ body, IsAscii c) :
    TokenAt ts p ('"' :: (body ++ ['"'])) (.value (.string body)) := by
  refine lexeme_found h (post := after) (by simpa using hs) ?_
  exact .stringClosed body after body '"' after hb rfl (utf8Len_ascii ha) (by decide)

example : ∃ ts p, tokenize chars!"x \"a:\"\"" = .ok (.ok ts) ∧
    LexemeStart chars!"x \"a:\"\"" ('"' :: (chars!"a:\"" ++ '"' :: [])) p ∧ StringBody chars!"a:\"" ∧
    ∀ c ∈ chars!"a:\"", IsAscii c := by
  refine ⟨_, _, rfl, (found_at 1 chars!"x " rfl (by decide +kernel) rfl (by decide +kernel)).1, ⟨?_, ?_⟩, by decide⟩
  · intro u v h
    rcases u with _ | ⟨a, _ | ⟨b, _ | ⟨c, u⟩⟩⟩ <;> simp at h
    exact ⟨['a'], by rw [h.1, h.2.1]; rfl⟩
  · intro u h
    rcases u with _ | ⟨a, _ | ⟨b, _ | ⟨c, u⟩⟩⟩ <;> simp at h

/-- **C15** An unclosed string literal (of any characters) takes all the remaining source. -/
theorem C15_string_open {code cs : Str} {p : Position} {ts : List Token}
    (h : tokenize code = .ok (.ok ts)) (hs : LexemeStart code ('"' :: cs) p) (hq : QuotesEscaped cs) :
    TokenAt ts p ('"' :: cs) (.value (.string cs)) ∧ ∀ t ∈ ts, t.range.start.bytes ≤ p.bytes := by
  refine ⟨lexeme_found h (post := []) (by simpa using hs) (.stringOpen cs hq), ?_⟩
  intro t ht
  obtain ⟨⟨before, hb⟩, _, _⟩ := hs
  obtain ⟨lex2, post2, ty2, after, k1, k2, k3⟩ := token_at h hb (by simp)
    (by intro c r he; simp at he; rw [← he.1]; decide)
  obtain ⟨e1, e2, e3⟩ := (Lexeme.stringOpen cs hq).unique k2 (by simpa using k1)
  subst e1 e2 e3
  have hscan : Scan code .first (before ++ [{ tokenType := .value (.string cs), range :=
      { start := p, stop := p.afterLexeme ('"' :: cs) } }]) [] (p.afterLexeme ('"' :: cs)) :=
    hb.trans (by simpa using Scan.tok _ _ _ p _ _ _ k2 (.refl _ _))
  obtain ⟨after', ha1, ha2⟩ := scan_at h hscan
  rw [run_nil] at ha2
  simp at ha2
  subst ha2
  rw [List.append_nil] at ha1
  rw [ha1] at ht
  rcases List.mem_append.1 ht with ht | ht
  · have := (scan_ordered hb).1 t ht
    have h8 := this.2.1.1
    rcases this.2.2 with h9 | h9
    · rw [h9] at h8; omega
    · have := h9.1; omega
  · simp at ht
    rw [ht]
    exact Int.le_refl _

example : ∃ ts, tokenize chars!"\"a:\"b::\" \"c\":\"" = .ok (.ok ts) ∧
    ts.map (·.tokenType) = [.value (.string chars!"a:\"b::\" "), .identifier ['c'],
      .value (.string chars!":\"")] := by
  refine ⟨_, rfl, ?_⟩
  decide +kernel

/-! ## C16, C17: comments and the only error -/

/-- **C16** At a lexeme start, `BTW` and the text up to the next newline or the end of the source is one
comment token whose payload is the text after `BTW`. -/
theorem C16_single_line_comment {code body post : Str} {p : Position} {ts : List Token}
    (h : tokenize code = .ok (.ok ts)) (hs : LexemeStart code (chars!"BTW" ++ body ++ post) p)
    (hb : '\n' ∉ body) (hp : post = [] ∨ ∃ r, post = '\n' :: r) :
    TokenAt ts p (chars!"BTW" ++ body) (.commentSingleLine body) :=
  lexeme_found h hs (.btw body post hb hp)

example : ∃ ts p, tokenize chars!"x BTW y\nz" = .ok (.ok ts) ∧ LexemeStart chars!"x BTW y\nz" (chars!"BTW" ++ chars!" y" ++ chars!"\nz") p ∧
    '\n' ∉ chars!" y" :=
  ⟨_, _, rfl, (found_at 1 chars!"x " rfl (by decide +kernel) rfl (by decide +kernel)).1, by decide⟩

/-- **C16** Single line comment tokens come from nowhere else. -/
theorem C16_comment_tokens {code rest : Str} {p : Position} {ts : List Token}
    (h : tokenize code = .ok (.ok ts)) (hs : LexemeStart code rest p) (body : Str) :
    TypeAt ts p (.commentSingleLine body) ↔
      ∃ post, rest = chars!"BTW" ++ body ++ post ∧ '\n' ∉ body ∧ (post = [] ∨ ∃ r, post = '\n' :: r) := by
  rw [typeAt_iff h hs]
  constructor
  · rintro ⟨lex, post, rfl, hl⟩
    cases hl with
    | btw body post h1 h2 => exact ⟨post, rfl, h1, h2⟩
  · rintro ⟨post, rfl, h1, h2⟩
    exact ⟨_, post, rfl, .btw body post h1 h2⟩

example : ∃ ts, tokenize chars!"x BTW I HAS A é, \"\ny" = .ok (.ok ts) ∧
    ts.map (·.tokenType) = [.identifier ['x'], .commentSingleLine chars!" I HAS A é, \"",
      .identifier ['y']] := by
  refine ⟨_, rfl, ?_⟩
  decide +kernel

/-- **C17** At a lexeme start, `OBTW` up to and including the first `TLDR` is one comment token whose payload
is the text in between; such tokens come from nowhere else. -/
theorem C17_multi_line_comment {code rest : Str} {p : Position} {ts : List Token}
    (h : tokenize code = .ok (.ok ts)) (hs : LexemeStart code rest p) (body : Str) :
    TypeAt ts p (.commentMultiLine body) ↔
      ∃ post, rest = chars!"OBTW" ++ body ++ chars!"TLDR" ++ post ∧
        ∀ u v, body ++ (chars!"TLDR" ++ post) = u ++ (chars!"TLDR" ++ v) → body.length ≤ u.length := by
  rw [typeAt_iff h hs]
  constructor
  · rintro ⟨lex, post, rfl, hl⟩
    cases hl with
    | obtw body post h1 => exact ⟨post, rfl, h1⟩
  · rintro ⟨post, rfl, h1⟩
    exact ⟨_, post, rfl, .obtw body post h1⟩

example : ∃ ts p, tokenize chars!"x OBTW y\nTLDR" = .ok (.ok ts) ∧ LexemeStart chars!"x OBTW y\nTLDR" chars!"OBTW y\nTLDR" p ∧
    TypeAt ts p (.commentMultiLine chars!" y\n") :=
  ⟨_, _, rfl, found_at 1 chars!"x " rfl (by decide +kernel) rfl (by decide +kernel)⟩

/-- **C17** `tokenize` returns an error iff some lexeme start is an `OBTW` with no `TLDR` after it, and the
error range runs from that `OBTW` to the end of the source. -/
theorem C17_error_iff (code : Str) (e : TokenError) :
    tokenize code = .ok (.error e) ↔
      ∃ rest p, LexemeStart code rest p ∧ chars!"OBTW" <+: rest ∧
        (∀ u v, rest ≠ u ++ (chars!"TLDR" ++ v)) ∧
        e = .unclosedMultilineComment { start := p, stop := p.afterLexeme rest } := by
  rw [tokenize_eq_run, run_error_iff]
  constructor
  · rintro ⟨ts, rest, q, h1, h2, rfl⟩
    obtain ⟨c, r, rfl, hc⟩ := h2.head_not_ws
    refine ⟨_, q, ⟨⟨ts, h1⟩, by simp, ?_⟩, h2.1, h2.2, rfl⟩
    intro d r' he
    simp at he
    exact he.1 ▸ hc
  · rintro ⟨rest, p, ⟨⟨ts, h1⟩, _⟩, h2, h3, rfl⟩
    exact ⟨ts, rest, p, h1, ⟨h2, h3⟩, rfl⟩

/-- **C17** The end of the error range is the end of the source. -/
theorem C17_error_range_end {code : Str} {r : Range}
    (h : tokenize code = .ok (.error (.unclosedMultilineComment r))) :
    r.stop.bytes = utf8Len code ∧ r.stop.chars = code.length ∧
      ∃ pre rest, code = pre ++ (chars!"OBTW" ++ rest) ∧ r.start.bytes = utf8Len pre := by
  rw [tokenize_eq_run, run_error_iff] at h
  obtain ⟨ts, rest, q, h1, h2, h3⟩ := h
  simp at h3
  subst h3
  obtain ⟨pre, g1, g2, g3⟩ := scan_prefix h1
  obtain ⟨⟨rest', hr⟩, _⟩ := h2
  refine ⟨?_, ?_, pre, rest', by rw [hr]; exact g1, by rw [g2]; simp [Position.first]⟩
  · rw [Position.afterLexeme, g1, g2]; simp [Position.first]
  · rw [Position.afterLexeme, g1, g3]; simp [Position.first]

example : tokenize chars!"x OBTW y TLDR, OBTW TLD" = .ok (.error (.unclosedMultilineComment
    { start := { line := 1, column := 16, bytes := 15, chars := 15 },
      stop := { line := 1, column := 24, bytes := 23, chars := 23 } })) := by decide +kernel

/-! ## C19: punctuation and symbols -/

/-- **C19** Comma, exclamation mark, `'Z` and `...` at a lexeme start. -/
theorem C19_punctuation {code rest : Str} {p : Position} {ts : List Token}
    (h : tokenize code = .ok (.ok ts)) (hs : LexemeStart code rest p) :
    (TypeAt ts p .comma ↔ [','] <+: rest) ∧ (TypeAt ts p .exclamationMark ↔ ['!'] <+: rest) ∧
    (TypeAt ts p .bukkitSlotAccess ↔ chars!"'Z" <+: rest) ∧
    (TypeAt ts p .ellipsis ↔ chars!"..." <+: rest) := by
  refine ⟨?_, ?_, ?_, ?_⟩
  all_goals
    rw [typeAt_iff h hs]
    constructor
    · rintro ⟨lex, post, rfl, hl⟩
      cases hl
      exact ⟨post, rfl⟩
  · rintro ⟨post, rfl⟩; exact ⟨_, post, rfl, .comma post⟩
  · rintro ⟨post, rfl⟩; exact ⟨_, post, rfl, .bang post⟩
  · rintro ⟨post, rfl⟩; exact ⟨_, post, rfl, .slot post⟩
  · rintro ⟨post, rfl⟩; exact ⟨_, post, rfl, .ellipsis post⟩

example : ∃ ts p, tokenize chars!"x'Z y" = .ok (.ok ts) ∧ LexemeStart chars!"x'Z y" chars!"'Z y" p ∧
    TypeAt ts p (.bukkitSlotAccess) :=
  ⟨_, _, rfl, found_at 1 chars!"x" rfl (by decide +kernel) rfl (by decide +kernel)⟩

/-- **C19** `QuestionMark` is never produced. -/
theorem C19_no_question_mark {code : Str} {ts : List Token} (h : tokenize code = .ok (.ok ts)) :
    ∀ t ∈ ts, t.tokenType ≠ .questionMark := by
  intro t ht he
  obtain ⟨lex, post, _, h2, _⟩ := token_lexemeStart h ht
  rw [he] at h2
  cases h2

example : ∃ ts, tokenize chars!"O RLY?" = .ok (.ok ts) ∧ ts.map (·.tokenType) = [.keyword .O_RLY, .symbol ['?']] := by
  refine ⟨_, rfl, ?_⟩
  decide +kernel

/-- **C19** `?` at a lexeme start is `Symbol("?")`. -/
theorem C19_question_symbol {code post : Str} {p : Position} {ts : List Token}
    (h : tokenize code = .ok (.ok ts)) (hs : LexemeStart code ('?' :: post) p) :
    TokenAt ts p ['?'] (.symbol ['?']) := by
  refine lexeme_found (lex := ['?']) (post := post) h hs ?_
  refine .symbol '?' post (by decide) (by decide) (by decide) (by decide) (by decide) (by decide)
    (not_prefix_head (by decide)) (not_prefix_head (by decide)) ?_
  intro lex r n he hn
  obtain ⟨c, s, hl, hh, _⟩ := hn.head
  rw [hl] at he
  simp at he
  rw [← he.1] at hh
  revert hh
  decide

example : ∃ ts p, tokenize chars!"WTF?" = .ok (.ok ts) ∧ LexemeStart chars!"WTF?" ('?' :: []) p :=
  ⟨_, _, rfl, (found_at 1 chars!"WTF" rfl (by decide +kernel) rfl (by decide +kernel)).1⟩

/-- **C19** A Symbol token holds exactly one ASCII character, the one under its range, and that is not a
letter, underscore, quote, comma, exclamation mark or white space. -/
theorem C19_symbol_one_char {code : Str} {ts : List Token} (h : tokenize code = .ok (.ok ts)) {t : Token}
    (ht : t ∈ ts) {s : Str} (hn : t.tokenType = .symbol s) :
    ∃ c, s = [c] ∧ IsAscii c ∧ ¬ IsIdent c ∧ ¬ IsWs c ∧ c ≠ '"' ∧ c ≠ ',' ∧ c ≠ '!' ∧
      slice code t.range.start.bytes.toNat t.range.stop.bytes.toNat = .ok [c] := by
  obtain ⟨q, hq⟩ := tokenize_scan h
  obtain ⟨pre, lex, post, before, h1, h2, h3, h4, h5, h6, h7⟩ := scan_token hq ht
  rw [hn] at h2
  cases h2 with
  | symbol c rest a1 a2 a3 a4 a5 a6 =>
    refine ⟨c, rfl, a1, a3, a2, a6, a4, a5, ?_⟩
    have hb : t.range.start.bytes = utf8Len pre := by rw [h6]; simp [Position.first]
    have hb' : t.range.stop.bytes = utf8Len (pre ++ [c]) := by
      rw [h5, Position.afterLexeme, hb]; simp
    rw [hb, hb']
    exact slice_of h1 rfl rfl

example : ∃ ts, tokenize chars!"O RLY? x'Z y!...+" = .ok (.ok ts) ∧
    ts.map (·.tokenType) = [.keyword .O_RLY, .symbol ['?'], .identifier ['x'], .bukkitSlotAccess,
      .identifier ['y'], .exclamationMark, .ellipsis, .symbol ['+']] := by
  refine ⟨_, rfl, ?_⟩
  decide +kernel

/-! ## C18: independence of the position -/

/-- Shift of a position: `dl` lines; `dc` columns, only on the line `l0` where the shifted text starts. -/
def Position.shift (l0 dl dc db dch : Int) (p : Position) : Position :=
  { line := p.line + dl, column := if p.line = l0 then p.column + dc else p.column,
    bytes := p.bytes + db, chars := p.chars + dch }

def Range.shift (l0 dl dc db dch : Int) (r : Range) : Range :=
  { start := r.start.shift l0 dl dc db dch, stop := r.stop.shift l0 dl dc db dch }

def Token.shift (l0 dl dc db dch : Int) (t : Token) : Token :=
  { t with range := t.range.shift l0 dl dc db dch }

def TokenError.shift (l0 dl dc db dch : Int) : TokenError → TokenError
  | .unclosedMultilineComment r => .unclosedMultilineComment (r.shift l0 dl dc db dch)

/-- Shift every position in a tokenizer outcome. -/
def shiftOutcome (l0 dl dc db dch : Int) :
    Out (Except TokenError (List Token)) → Out (Except TokenError (List Token))
  | .ok (.ok ts) => .ok (.ok (ts.map (Token.shift l0 dl dc db dch)))
  | .ok (.error e) => .ok (.error (e.shift l0 dl dc db dch))
  | .panic s => .panic s
  | .outOfFuel => .outOfFuel

private theorem shift_afterLexeme (l0 dl dc db dch : Int) (p : Position) (s : Str) :
    (p.afterLexeme s).shift l0 dl dc db dch = (p.shift l0 dl dc db dch).afterLexeme s := by
  unfold Position.shift Position.afterLexeme
  simp only [Position.mk.injEq]
  refine ⟨trivial, ?_, by omega, by omega⟩
  split <;> omega

private theorem shift_afterWs {l0 : Int} (dl dc db dch : Int) {p : Position} (h : l0 ≤ p.line) {c : Char}
    : (p.afterWs c).shift l0 dl dc db dch = (p.shift l0 dl dc db dch).afterWs c := by
  unfold Position.shift Position.afterWs
  split
  · simp only [Position.mk.injEq]
    refine ⟨by omega, ?_, by omega, by omega⟩
    rw [if_neg (by omega)]
  · simp only [Position.mk.injEq]
    refine ⟨trivial, ?_, by omega, by omega⟩
    split <;> omega

private theorem prepend_shift (l0 dl dc db dch : Int) (ts : List Token) (r) :
    shiftOutcome l0 dl dc db dch (prepend ts r) =
      prepend (ts.map (Token.shift l0 dl dc db dch)) (shiftOutcome l0 dl dc db dch r) := by
  rcases r with (_ | _) | _ | _ <;> simp [prepend, shiftOutcome]

private theorem run_shift (code : Str) (l0 dl dc db dch : Int) (p : Position) (hp : l0 ≤ p.line) :
    run code (p.shift l0 dl dc db dch) = shiftOutcome l0 dl dc db dch (run code p) := by
  induction hl : code.length using Nat.strongRecOn generalizing code p with
  | _ k ih =>
    cases code with
    | nil => rw [run_nil, run_nil]; rfl
    | cons c r =>
      by_cases hws : IsWs c
      · rw [run_ws hws, run_ws hws, ← shift_afterWs dl dc db dch hp]
        refine ih r.length (by simp at hl; omega) r _ ?_ rfl
        unfold Position.afterWs; split
        · simp only; omega
        · exact hp
      · rcases lexeme_or_error c r hws with ⟨lex, rest, ty, he, hlex⟩ | h | h
        · have := List.length_pos_iff.2 hlex.ne_nil
          have hlen : (c :: r).length = lex.length + rest.length := by rw [he]; simp
          rw [he, run_lexeme hlex, run_lexeme hlex, ← shift_afterLexeme,
            ih rest.length (by omega) rest _ (by exact hp) rfl, prepend_shift]
          simp [Token.shift, Range.shift]
        · rw [run_unclosed h, run_unclosed h, ← shift_afterLexeme]; rfl
        · rw [run_stuck h, run_stuck h]; rfl

/-- The types in an outcome, forgetting positions. -/
def typesOf : Out (Except TokenError (List Token)) → Option (List TokenType)
  | .ok (.ok ts) => some (ts.map (·.tokenType))
  | _ => none

/-- **C18** The loop started at another position yields the same outcome with shifted positions; on the first
line the columns shift as well. -/
theorem C18_position_independent (code : Str) (p q : Position) (fuel : Nat) (hf : code.length < fuel) :
    tokenizeLoop fuel code q = shiftOutcome p.line (q.line - p.line) (q.column - p.column)
      (q.bytes - p.bytes) (q.chars - p.chars) (tokenizeLoop fuel code p) := by
  have hq : q = p.shift p.line (q.line - p.line) (q.column - p.column) (q.bytes - p.bytes)
      (q.chars - p.chars) := by
    unfold Position.shift
    obtain ⟨a, b, c, d⟩ := q
    simp only [Position.mk.injEq, if_true]
    omega
  rw [loop_eq_run hf, loop_eq_run hf]
  conv => lhs; rw [hq]
  exact run_shift code _ _ _ _ _ p (Int.le_refl _)

example : shiftOutcome 1 4 2 9 8 (tokenizeLoop 4 chars!"x\ny" .first) =
    tokenizeLoop 4 chars!"x\ny" { line := 5, column := 3, bytes := 9, chars := 8 } := by decide +kernel

/-- **C18** Prepending white space only shifts positions: as many lines as there are newlines in it, and on
the first line of the source as many columns as there are characters after its last newline. -/
theorem C18_leading_whitespace (ws code : Str) (h : WsOnly ws) :
    tokenize (ws ++ code) = shiftOutcome 1 (ws.count '\n' : Nat) ((lastLine ws).length : Nat)
      (ws.length : Nat) (ws.length : Nat) (tokenize code) := by
  have hscan : ∀ (w : Str) (c : Str) (p : Position), WsOnly w →
      Scan (w ++ c) p [] c (w.foldl Position.afterWs p) := by
    intro w c
    induction w with
    | nil => intro p _; exact .refl _ _
    | cons d w ih =>
      intro p hw
      exact .ws _ _ _ _ _ _ (hw d (by simp)) (ih _ (fun e he => hw e (by simp [he])))
  have hs := hscan ws code .first h
  have hasc : ∀ s : Str, WsOnly s → utf8Len s = s.length := fun s hs =>
    utf8Len_ascii (fun c hc => utf8Size_ascii.1 (hs c hc).size)
  obtain ⟨mid, m1, m2, m3⟩ := scan_line hs [] rfl rfl (by simp)
  obtain ⟨pre, g1, g2, g3⟩ := scan_prefix hs
  obtain rfl : ws = mid := List.append_cancel_right m1
  obtain rfl : ws = pre := List.append_cancel_right g1
  have hll : WsOnly (lastLine ws) := by
    intro c hc
    unfold lastLine at hc
    rw [List.mem_reverse] at hc
    exact h c (by simpa using (List.takeWhile_prefix _).subset hc)
  rw [tokenize_eq_run, tokenize_eq_run, run_scan hs, prepend_nil]
  have hq : ws.foldl Position.afterWs .first = Position.shift 1 (ws.count '\n' : Nat)
      ((lastLine ws).length : Nat) (ws.length : Nat) (ws.length : Nat) .first := by
    have e1 := hasc ws h
    have e2 := hasc _ hll
    generalize ws.foldl Position.afterWs .first = q at *
    obtain ⟨a, b, c, d⟩ := q
    simp only [List.nil_append] at m2 m3
    simp only [Position.first] at g2 g3
    unfold Position.shift
    simp only [Position.first, if_true, Position.mk.injEq]
    omega
  rw [hq]
  exact run_shift code 1 _ _ _ _ .first (by decide)

example : WsOnly chars!"\n \t" ∧ tokenize chars!"\n \tx\ny" = .ok (.ok [
    { tokenType := .identifier ['x'], range := {
        start := { line := 2, column := 3, bytes := 3, chars := 3 },
        stop := { line := 2, column := 4, bytes := 4, chars := 4 } } },
    { tokenType := .identifier ['y'], range := {
        start := { line := 3, column := 1, bytes := 5, chars := 5 },
        stop := { line := 3, column := 2, bytes := 6, chars := 6 } } }]) := by
  refine ⟨?_, by decide +kernel⟩
  unfold WsOnly
  decide

/-- **C18** In particular the token types do not change. -/
theorem C18_types_unchanged (ws code : Str) (h : WsOnly ws) :
    typesOf (tokenize (ws ++ code)) = typesOf (tokenize code) := by
  rw [C18_leading_whitespace ws code h]
  rcases tokenize code with (_ | ts) | _ | _ <;> simp [typesOf, shiftOutcome, Token.shift]

example : WsOnly chars!" \n" ∧ typesOf (tokenize chars!"OIC x") = some [.keyword .OIC, .identifier ['x']] :=
  ⟨by unfold WsOnly; decide, by decide +kernel⟩

end Lol
