import Verif.Lexer.ImageLemmas
import Verif.Props.LexerTokens

/-! # Properties of the tokenizer: which lists of tokens it returns (C67) -/

namespace Lol

/-- **C67** A list of token types in which strings are ASCII is the list of the types of the tokens of some source text,
exactly if it is one of the lists `Emits`. -/
theorem C67_image {tys : List TokenType} (hs : ∀ s, .value (.string s) ∈ tys → ∀ c ∈ s, IsAscii c) :
    (∃ code ts, tokenize code = .ok (.ok ts) ∧ ts.map (·.tokenType) = tys) ↔ Emits tys := by
  constructor
  · rintro ⟨code, ts, h1, rfl⟩
    obtain ⟨q, hq⟩ := tokenize_scan h1
    exact scan_emits _ (Nat.le_refl _) hq fun t ht s he => hs s (List.mem_map.2 ⟨t, ht, he⟩)
  · intro h
    obtain ⟨code, h⟩ := h.scan
    obtain ⟨ts, q, h1, h2⟩ := h .first
    refine ⟨code, ts, ?_, h2⟩
    rw [tokenize_eq_run, run_scan h1, run_nil]
    simp [prepend]

-- the list of the first two digits of a large integer, the integer at its end, a comment and a string without an end
example : ∃ code ts, tokenize code = .ok (.ok ts) ∧ ts.map (·.tokenType) =
    [.symbol ['3'], .symbol ['2'], .value (.number (.int 7)), .commentSingleLine chars!" BTW", .keyword .VISIBLE,
      .value (.string chars!"a:\"")] := by
  refine (C67_image ?_).2 (.large (ds := ['3']) (by decide) (by decide) (by decide) (by decide) (by decide)
    (.comment (by decide) (.cons ?_ (.openString ?_ (by decide)))))
  · intro s h
    simp at h
    subst h
    decide
  · show Keyword.VISIBLE ∉ hiddenKeywords
    decide
  · intro u v h
    match u, h with
    | [], h => simp at h
    | [_], h => simp at h
    | [x, y], h =>
      simp at h
      exact ⟨['a'], by simp [← h.1, ← h.2.1]⟩
    | _ :: _ :: _ :: _, h => simp at h

-- and the text that was found for it
example : ∃ ts, tokenize chars!"3200000000007\tBTW BTW\nVISIBLE\t\"a:\"" = .ok (.ok ts) ∧ ts.map (·.tokenType) =
    [.symbol ['3'], .symbol ['2'], .value (.number (.int 7)), .commentSingleLine chars!" BTW", .keyword .VISIBLE,
      .value (.string chars!"a:\"")] := by
  refine ⟨_, rfl, ?_⟩
  decide +kernel

/-- Without digits, comments and strings that are not closed. -/
theorem emits_of_writable {tys : List TokenType} (h : ∀ ty ∈ tys, Writable ty) : Emits tys := by
  induction tys with
  | nil => exact .nil
  | cons ty tys ih => exact .cons (h ty (by simp)) (ih fun t ht => h t (by simp [ht]))

/-- **C67** Without single line comments, symbols that are digits and unclosed strings, every token can stand anywhere:
the list is that of a source text exactly if every type in it can be written. -/
theorem C67_writable {tys : List TokenType} (hc : ∀ s, .commentSingleLine s ∉ tys)
    (hd : ∀ d, IsDigit d → .symbol [d] ∉ tys)
    (hs : ∀ s, .value (.string s) ∈ tys → StringBody s ∧ ∀ c ∈ s, IsAscii c) :
    (∃ code ts, tokenize code = .ok (.ok ts) ∧ ts.map (·.tokenType) = tys) ↔ ∀ ty ∈ tys, Writable ty := by
  rw [C67_image fun s h => (hs s h).2]
  refine ⟨fun h => ?_, emits_of_writable⟩
  induction h with
  | nil => simp
  | cons hw _ ih =>
    intro t ht
    rcases List.mem_cons.1 ht with rfl | ht
    · exact hw
    · exact ih (fun s h => hc s (by simp [h])) (fun d h h' => hd d h (by simp [h'])) (fun s h => hs s (by simp [h])) t ht
  | @comment s => exact absurd List.mem_cons_self (hc s)
  | @large ds d n tys h1 h2 => exact absurd (by simp [symbols]) (hd d h2)
  | openString =>
    intro t ht
    simp at ht
    subst ht
    exact hs _ (by simp)
  | @int ds h =>
    cases ds with
    | nil => simp [symbols]
    | cons d ds => exact absurd (by simp [symbols]) (hd d (h d (by simp)))
  | @float ds es h h' =>
    cases ds with
    | cons d ds => exact absurd (by simp [symbols]) (hd d (h d (by simp)))
    | nil =>
      cases es with
      | cons d ds => exact absurd (by simp [symbols]) (hd d (h' d (by simp)))
      | nil =>
        intro t ht
        simp [symbols] at ht
        subst ht
        exact ⟨'.', rfl, by decide, by decide, by decide, by decide, by decide, by decide, by decide⟩

-- `...` need not be followed by a line break, and a comma may be the first token
example : ∃ code ts, tokenize code = .ok (.ok ts) ∧
    ts.map (·.tokenType) = [.comma, .ellipsis, .identifier chars!"x", .symbol ['.'], .value (.number (.int (-3)))] := by
  refine (C67_writable (by simp) ?_ (by simp)).2 ?_
  · intro d hd h
    simp at h
    subst h
    exact absurd hd (by decide)
  · simp only [List.forall_mem_cons, List.not_mem_nil, false_imp_iff, implies_true, and_true, Writable, true_and]
    refine ⟨⟨by decide, by decide, fun k => by cases k <;> decide⟩, ⟨'.', rfl, by decide⟩, by decide⟩

/-- **C67** After a symbol that is a digit there are more such symbols and an integer, or the text ends with digits and
at most one point. -/
theorem C67_after_digit {code : Str} {ts : List Token} (h : tokenize code = .ok (.ok ts))
    (hs : ∀ t ∈ ts, ∀ s, t.tokenType = .value (.string s) → ∀ c ∈ s, IsAscii c) {us vs : List TokenType} {d : Char}
    (hd : IsDigit d) (he : ts.map (·.tokenType) = us ++ .symbol [d] :: vs) :
    (∃ (ds : Str) (n : Int) (ws : List TokenType), vs = symbols ds ++ .value (.number (.int n)) :: ws ∧
      (∀ c ∈ ds, IsDigit c) ∧ 0 ≤ n) ∨
    (∃ ds : Str, vs = symbols ds ∧ ∀ c ∈ ds, IsDigit c) ∨
    (∃ ds es : Str, vs = symbols (ds ++ '.' :: es) ∧ (∀ c ∈ ds, IsDigit c) ∧ ∀ c ∈ es, IsDigit c) := by
  obtain ⟨q, hq⟩ := tokenize_scan h
  have hE := scan_emits _ (Nat.le_refl _) hq hs
  rw [he] at hE
  clear he hq hs h
  generalize hl : us ++ .symbol [d] :: vs = l at hE
  have hsplit : ∀ {s : Str} {us : List TokenType}, us ++ .symbol [d] :: vs = symbols s → ∃ a b, s = a ++ d :: b ∧
      vs = symbols b := by
    intro s us h
    obtain ⟨a, b, rfl, h1, h2⟩ := List.map_eq_append_iff.1 h.symm
    obtain ⟨c, b', rfl, h3, h4⟩ := List.map_eq_cons_iff.1 h2
    cases h3
    exact ⟨a, b', rfl, h4.symm⟩
  induction hE generalizing us with
  | nil => simp at hl
  | cons hw hE ih =>
    cases us with
    | cons u us =>
      rw [List.cons_append] at hl
      exact ih (List.cons.inj hl).2
    | nil =>
      rw [List.nil_append] at hl
      obtain ⟨rfl, -⟩ := List.cons.inj hl
      obtain ⟨c, hc, -, -, -, hn, -⟩ := hw
      cases hc
      exact absurd hd hn
  | comment _ _ ih =>
    cases us with
    | cons u us =>
      rw [List.cons_append] at hl
      exact ih (List.cons.inj hl).2
    | nil =>
      rw [List.nil_append] at hl
      exact absurd (List.cons.inj hl).1 (by simp)
  | @large ds e n tys h1 h2 h3 h4 h5 _ ih =>
    have hds : ∀ c ∈ ds ++ [e], IsDigit c := by
      intro c hc
      rcases List.mem_append.1 hc with hc | hc
      · exact h1 c hc
      · simp at hc
        exact hc ▸ h2
    rcases List.append_eq_append_iff.1 hl with ⟨a, g1, g2⟩ | ⟨a, g1, g2⟩
    · cases a with
      | nil => simp at g2
      | cons x a =>
        rw [List.cons_append] at g2
        obtain ⟨rfl, g3⟩ := List.cons.inj g2
        obtain ⟨b, b', g4, g5⟩ := List.map_eq_append_iff.1 g1
        obtain ⟨g6, g7⟩ := g5
        obtain ⟨c, b'', rfl, g8, g9⟩ := List.map_eq_cons_iff.1 g7
        exact .inl ⟨b'', n, tys, by rw [g3, ← g9]; rfl, fun c hc => hds c (by simp [g4, hc]), h4⟩
    · cases a with
      | nil => simp at g2
      | cons x a =>
        rw [List.cons_append] at g2
        exact ih (List.cons.inj g2).2.symm
  | openString =>
    cases us with
    | cons u us => simp at hl
    | nil => simp at hl
  | int h =>
    obtain ⟨a, b, rfl, g⟩ := hsplit hl
    exact .inr (.inl ⟨b, g, fun c hc => h c (by simp [hc])⟩)
  | @float ds es h h' =>
    obtain ⟨a, b, g1, g⟩ := hsplit hl
    rcases List.append_eq_append_iff.1 g1 with ⟨x, k1, k2⟩ | ⟨x, k1, k2⟩
    · cases x with
      | nil =>
        rw [List.nil_append] at k2
        have := (List.cons.inj k2).1
        subst this
        exact absurd hd (by decide)
      | cons y x =>
        rw [List.cons_append] at k2
        exact .inr (.inl ⟨b, g, fun c hc => h' c (by rw [(List.cons.inj k2).2]; simp [hc])⟩)
    · cases x with
      | nil =>
        rw [List.nil_append] at k2
        have := (List.cons.inj k2).1
        subst this
        exact absurd hd (by decide)
      | cons y x =>
        rw [List.cons_append] at k2
        refine .inr (.inr ⟨x, es, ?_, fun c hc => h c (by simp [k1, hc]), h'⟩)
        rw [g, (List.cons.inj k2).2]

-- no text has the tokens `3 ,` where `3` is a symbol
example : ¬ ∃ code ts, tokenize code = .ok (.ok ts) ∧ ts.map (·.tokenType) = [.symbol ['3'], .comma] := by
  rintro ⟨code, ts, h1, h2⟩
  have hs : ∀ t ∈ ts, ∀ s, t.tokenType = .value (.string s) → ∀ c ∈ s, IsAscii c := by
    intro t ht s h
    have := List.mem_map_of_mem (f := (·.tokenType)) ht
    rw [h2, h] at this
    simp at this
  rcases C67_after_digit h1 hs (us := []) (d := '3') (by decide) h2 with ⟨ds, n, ws, h, -⟩ | ⟨ds, h, -⟩ | ⟨ds, es, h, -⟩
  · cases ds <;> simp [symbols] at h
  · cases ds <;> simp [symbols] at h
  · cases ds <;> simp [symbols] at h

end Lol
