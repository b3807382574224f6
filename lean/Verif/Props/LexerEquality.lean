import Verif.Lexer.Equality
import Verif.Props.LexerFloat

/-! # Properties of `==` on tokens and of the display of positions (C58) -/

namespace Lol

/-! ## C58: equality -/

theorem TokenType.eq_refl {ty : TokenType} (hf : ∀ x, ty = .value (.number (.float x)) → x.bits ≤ infBits) :
    TokenType.eq ty ty = true := by
  cases ty with
  | value v =>
    cases v with
    | number n =>
      cases n with
      | int n => simp [TokenType.eq, TokenValue.eq, NumberToken.eq]
      | float x => exact (C66_eq_refl x).2 (hf x rfl)
    | _ => simp [TokenType.eq, TokenValue.eq]
  | _ => simp [TokenType.eq]

/-- **C58** The derived equality of token types is identity, except between floats. -/
theorem C58_type_eq {a : TokenType} (h : ∀ s, a ≠ .value (.number (.float s))) (b : TokenType) :
    TokenType.eq a b = true ↔ a = b := by
  cases a with
  | value v =>
    cases v with
    | number n =>
      cases n with
      | int n =>
        cases b with
        | value w =>
          cases w with
          | number m => cases m <;> simp [TokenType.eq, TokenValue.eq, NumberToken.eq]
          | _ => simp [TokenType.eq, TokenValue.eq]
        | _ => simp [TokenType.eq]
      | float s => exact absurd rfl (h s)
    | _ =>
      cases b with
      | value w => cases w <;> simp [TokenType.eq, TokenValue.eq]
      | _ => simp [TokenType.eq]
  | _ => cases b <;> simp [TokenType.eq]

example : (∀ s, TokenType.keyword .MKAY ≠ .value (.number (.float s))) ∧
    TokenType.eq (.value (.number (.float ⟨false, 0⟩))) (.value (.number (.float ⟨true, 0⟩))) = true :=
  ⟨fun _ => by simp, rfl⟩

/-- **C66** Between floats the equality of token types is that of their numbers. -/
theorem C66_type_eq (x : F32) (b : TokenType) : TokenType.eq (.value (.number (.float x))) b = true ↔
    ∃ y, b = .value (.number (.float y)) ∧ x.bits ≤ infBits ∧ y.bits ≤ infBits ∧ x.number = y.number := by
  cases b with
  | value w =>
    cases w with
    | number m =>
      cases m with
      | int m => simp [TokenType.eq, TokenValue.eq, NumberToken.eq]
      | float y =>
        rw [TokenType.eq, TokenValue.eq, NumberToken.eq, C66_eq_iff]
        constructor
        · exact fun h => ⟨y, rfl, h⟩
        · rintro ⟨y', h, h'⟩
          cases h
          exact h'
    | _ => simp [TokenType.eq, TokenValue.eq]
  | _ => simp [TokenType.eq]

-- a literal that is rounded
example : ∃ ts us, tokenize chars!"16777217.0," = .ok (.ok ts) ∧ tokenize chars!"16777216.0," = .ok (.ok us) ∧
    ts.isEqv us Token.eq = true := by
  refine ⟨_, _, rfl, rfl, ?_⟩
  decide +kernel

theorem Range.eq_iff (a b : Range) : Range.eq a b = true ↔
    (a.start.line = b.start.line ∧ a.start.column = b.start.column) ∧
      a.stop.line = b.stop.line ∧ a.stop.column = b.stop.column := by
  simp [Range.eq, Position.eq]

/-- **C58** Within one source two tokens have equal ranges only if they are the same token. -/
theorem C58_range_eq {code : Str} {ts : List Token} (h : tokenize code = .ok (.ok ts)) {t u : Token} (ht : t ∈ ts)
    (hu : u ∈ ts) : Range.eq t.range u.range = true ↔ t = u := by
  constructor
  · intro he
    have hs : t.range.start.bytes = u.range.start.bytes := by
      refine (C09_position_order h ⟨t, ht, .inl rfl⟩ ⟨u, hu, .inl rfl⟩).1.1 ?_
      simp [Range.eq] at he
      exact he.1
    obtain ⟨h1, h2⟩ := C04_ranges_ordered h
    obtain ⟨i, hi, rfl⟩ := List.getElem_of_mem ht
    obtain ⟨j, hj, rfl⟩ := List.getElem_of_mem hu
    rw [List.pairwise_iff_getElem] at h2
    have hti := h1 _ ht
    have htj := h1 _ hu
    rcases Nat.lt_trichotomy i j with hlt | rfl | hgt
    · have := h2 i j hi hj hlt
      omega
    · rfl
    · have := h2 j i hj hi hgt
      omega
  · rintro rfl
    simp [Range.eq, Position.eq]

example : ∃ ts t r u, tokenize chars!"x R x" = .ok (.ok ts) ∧ ts = [t, r, u] ∧ t.tokenType = u.tokenType ∧
    Range.eq t.range u.range = false :=
  ⟨_, _, _, _, rfl, rfl, rfl, by decide +kernel⟩

/-- **C58** Within one source two tokens are equal (`==`) only if they are the same token. -/
theorem C58_token_eq {code : Str} {ts : List Token} (h : tokenize code = .ok (.ok ts)) {t u : Token} (ht : t ∈ ts)
    (hu : u ∈ ts) : Token.eq t u = true ↔ t = u := by
  constructor
  · intro he
    simp only [Token.eq, Bool.and_eq_true] at he
    exact (C58_range_eq h ht hu).1 he.2
  · rintro rfl
    simp [Token.eq, TokenType.eq_refl (C66_not_nan h ht), (C58_range_eq h ht ht).2]

example : ∃ ts t r u, tokenize chars!"x R x" = .ok (.ok ts) ∧ ts = [t, r, u] ∧ t.tokenType = u.tokenType ∧
    Token.eq t u = false :=
  ⟨_, _, _, _, rfl, rfl, rfl, by decide +kernel⟩

theorem TokenType.eq_symm {a b : TokenType} (h : TokenType.eq a b = true) : TokenType.eq b a = true := by
  by_cases hf : ∃ x, a = .value (.number (.float x))
  · obtain ⟨x, rfl⟩ := hf
    obtain ⟨y, rfl, h1, h2, h3⟩ := (C66_type_eq x b).1 h
    exact (C66_type_eq y _).2 ⟨x, rfl, h2, h1, h3.symm⟩
  · have hf' : ∀ s, a ≠ .value (.number (.float s)) := fun s hs => hf ⟨s, hs⟩
    have := (C58_type_eq hf' b).1 h
    subst this
    exact h

theorem TokenType.eq_trans {a b c : TokenType} (h : TokenType.eq a b = true) (h' : TokenType.eq b c = true) :
    TokenType.eq a c = true := by
  by_cases hf : ∃ x, a = .value (.number (.float x))
  · obtain ⟨x, rfl⟩ := hf
    obtain ⟨y, rfl, h1, h2, h3⟩ := (C66_type_eq x b).1 h
    obtain ⟨z, rfl, h4, h5, h6⟩ := (C66_type_eq y c).1 h'
    exact (C66_type_eq x _).2 ⟨z, rfl, h1, h5, h3.trans h6⟩
  · have hf' : ∀ s, a ≠ .value (.number (.float s)) := fun s hs => hf ⟨s, hs⟩
    have := (C58_type_eq hf' b).1 h
    subst this
    exact h'

/-- **C66** `==` of tokens is symmetric and transitive, and reflexive on the tokens of a source. (It is not on a token
with NaN.) -/
theorem C66_equivalence : (∀ a b, Token.eq a b = true → Token.eq b a = true) ∧
    (∀ a b c, Token.eq a b = true → Token.eq b c = true → Token.eq a c = true) ∧
    (∀ code ts, tokenize code = .ok (.ok ts) → ∀ t ∈ ts, Token.eq t t = true) ∧
    ∀ x r, Token.eq ⟨.value (.number (.float x)), r⟩ ⟨.value (.number (.float x)), r⟩ = true ↔ x.isNaN = false := by
  refine ⟨fun a b h => ?_, fun a b c h h' => ?_, fun code ts h t ht => (C58_token_eq h ht ht).2 rfl, fun x r => ?_⟩
  · simp only [Token.eq, Bool.and_eq_true, Range.eq_iff] at h ⊢
    exact ⟨TokenType.eq_symm h.1, by omega⟩
  · simp only [Token.eq, Bool.and_eq_true, Range.eq_iff] at h h' ⊢
    exact ⟨TokenType.eq_trans h.1 h'.1, by omega⟩
  · simp only [Token.eq, Bool.and_eq_true, Range.eq_iff, and_self, and_true]
    rw [C66_type_eq]
    unfold F32.isNaN
    rw [decide_eq_false_iff_not, Nat.not_lt]
    constructor
    · rintro ⟨y, -, h, -⟩
      exact h
    · exact fun h => ⟨x, rfl, h, h, rfl⟩

-- three tokens of the same type
example : ∃ ts, tokenize chars!"x x\nx" = .ok (.ok ts) ∧ ts.length = 3 ∧
    ts.map (·.tokenType) = [.identifier chars!"x", .identifier chars!"x", .identifier chars!"x"] ∧
    ts.map (fun t => ts.map (Token.eq t)) = [[true, false, false], [false, true, false], [false, false, true]] := by
  refine ⟨_, rfl, ?_⟩
  decide +kernel

/-- **C58** Tokens of different sources can be equal without being the same: only line and column count. -/
theorem C58_across_sources : ∃ t u, tokenize chars!"BTW\nx" = .ok (.ok t) ∧ tokenize chars!"BTW abc\nx" = .ok (.ok u) ∧
    ∃ a ∈ t, ∃ b ∈ u, a ≠ b ∧ Token.eq a b = true := by
  refine ⟨_, _, rfl, rfl, ?_⟩
  decide +kernel

/-- **C58** Two errors of the tokenizer are equal (`==`) if and only if the lines and columns of their ranges are. -/
theorem C58_error_eq (r s : Range) :
    TokenError.eq (.unclosedMultilineComment r) (.unclosedMultilineComment s) = true ↔
      r.start.line = s.start.line ∧ r.start.column = s.start.column ∧ r.stop.line = s.stop.line ∧
        r.stop.column = s.stop.column := by
  simp [TokenError.eq, Range.eq, Position.eq, and_assoc]

-- The errors of two sources: `OBTW` in the same place, then one character more in the second
example : ∃ r s, tokenize chars!"x OBTW a" = .ok (.error (.unclosedMultilineComment r)) ∧
    tokenize chars!"y OBTW ab" = .ok (.error (.unclosedMultilineComment s)) ∧ r.start = s.start ∧
    TokenError.eq (.unclosedMultilineComment r) (.unclosedMultilineComment s) = false := by
  refine ⟨_, _, rfl, rfl, ?_⟩
  decide +kernel

/-! ## C58: display -/

theorem decVal_eq_ofDigitChars (ds : Str) : decVal ds = Nat.ofDigitChars 10 ds 0 := by
  unfold decVal Nat.ofDigitChars
  congr 1
  funext n c
  rw [Nat.mul_comm]

theorem toDigits_head (n : Nat) : (Nat.toDigits 10 n).head? = some '0' → n = 0 := by
  induction n using Nat.strongRecOn with
  | _ n ih =>
    intro h
    by_cases hn : n < 10
    · rw [Nat.toDigits_of_lt_base hn] at h
      have : ∀ m : Fin 10, [Nat.digitChar m.1].head? = some '0' → m.1 = 0 := by decide
      exact this ⟨n, hn⟩ h
    · rw [Nat.toDigits_of_base_le (by omega) (by omega)] at h
      have h' : (Nat.toDigits 10 (n / 10)).head? = some '0' := by
        cases he : Nat.toDigits 10 (n / 10) with
        | nil => exact absurd he Nat.toDigits_ne_nil
        | cons a l => rw [he] at h; simpa using h
      have := ih _ (by omega) h'
      omega

theorem displayInt_numeral (n : Int) : ∃ sgn ds, displayInt n = sgn ++ ds ∧
    sgn = (if n < 0 then ['-'] else []) ∧ ds ≠ [] ∧ (∀ c ∈ ds, IsDigit c) ∧ (ds.head? = some '0' → ds = ['0']) ∧
    signedVal sgn ds = n := by
  have hd : ∀ m, Nat.toDigits 10 m ≠ [] ∧ (∀ c ∈ Nat.toDigits 10 m, IsDigit c) ∧
      ((Nat.toDigits 10 m).head? = some '0' → Nat.toDigits 10 m = ['0']) ∧ decVal (Nat.toDigits 10 m) = m := by
    intro m
    refine ⟨Nat.toDigits_ne_nil, fun c hc => ?_, fun h => ?_, ?_⟩
    · have := Nat.isDigit_of_mem_toDigits (by omega) (by omega) hc
      simp only [Char.isDigit, Bool.and_eq_true, decide_eq_true_eq] at this
      exact this
    · rw [toDigits_head m h]; rfl
    · rw [decVal_eq_ofDigitChars, Nat.ofDigitChars_toDigits (by omega) (by omega)]
  obtain ⟨h1, h2, h3, h4⟩ := hd n.natAbs
  unfold displayInt
  split
  · refine ⟨['-'], Nat.toDigits 10 n.natAbs, rfl, rfl, h1, h2, h3, ?_⟩
    simp only [signedVal, h4, if_true]
    omega
  · refine ⟨[], Nat.toDigits 10 n.natAbs, rfl, rfl, h1, h2, h3, ?_⟩
    simp only [signedVal, h4]
    simp
    omega

theorem toDigits_inj {a b : Nat} (h : Nat.toDigits 10 a = Nat.toDigits 10 b) : a = b := by
  have := congrArg (Nat.ofDigitChars 10 · 0) h
  simpa [Nat.ofDigitChars_toDigits] using this

theorem mem_displayInt {n : Int} {c : Char} (h : c ∈ displayInt n) : c = '-' ∨ c.isDigit = true := by
  unfold displayInt at h
  split at h
  · rcases List.mem_cons.1 h with rfl | h
    · exact .inl rfl
    · exact .inr (Nat.isDigit_of_mem_toDigits (by omega) (by omega) h)
  · exact .inr (Nat.isDigit_of_mem_toDigits (by omega) (by omega) h)

theorem displayInt_inj {a b : Int} (h : displayInt a = displayInt b) : a = b := by
  have hd : ∀ n r, '-' :: r ≠ Nat.toDigits 10 n := by
    intro n r he
    have : ('-' : Char) ∈ Nat.toDigits 10 n := he ▸ List.mem_cons_self
    exact absurd (Nat.isDigit_of_mem_toDigits (by omega) (by omega) this) (by decide)
  unfold displayInt at h
  split at h <;> split at h
  · have := toDigits_inj (List.cons.inj h).2
    omega
  · exact absurd h (hd _ _)
  · exact absurd h.symm (hd _ _)
  · have := toDigits_inj h
    omega

/-- Two texts that end at the first character outside numbers. -/
theorem append_sep_inj {a b r s : Str} {n m : Int} {c : Char} (ha : a = displayInt n) (hb : b = displayInt m)
    (hc : c ≠ '-' ∧ c.isDigit = false) (h : a ++ c :: r = b ++ c :: s) : n = m ∧ r = s := by
  have ha' : ∀ x ∈ a, x ≠ c := by
    rintro x hx rfl
    rcases mem_displayInt (ha ▸ hx) with h | h
    · exact hc.1 h
    · rw [hc.2] at h; cases h
  have hb' : ∀ x ∈ b, x ≠ c := by
    rintro x hx rfl
    rcases mem_displayInt (hb ▸ hx) with h | h
    · exact hc.1 h
    · rw [hc.2] at h; cases h
  have key : ∀ (a b : Str), (∀ x ∈ a, x ≠ c) → (∀ x ∈ b, x ≠ c) → a ++ c :: r = b ++ c :: s → a = b ∧ r = s := by
    intro a
    induction a with
    | nil =>
      intro b _ hb h
      cases b with
      | nil => exact ⟨rfl, (List.cons.inj h).2⟩
      | cons x b => exact absurd (List.cons.inj h).1.symm (hb x (by simp))
    | cons y a ih =>
      intro b ha hb h
      cases b with
      | nil => exact absurd (List.cons.inj h).1 (ha y (by simp))
      | cons x b =>
        obtain ⟨rfl, h'⟩ := List.cons.inj h
        obtain ⟨rfl, hr⟩ := ih b (fun z hz => ha z (by simp [hz])) (fun z hz => hb z (by simp [hz])) h'
        exact ⟨rfl, hr⟩
  obtain ⟨hab, hr⟩ := key a b ha' hb' h
  exact ⟨displayInt_inj (by rw [← ha, ← hb, hab]), hr⟩

theorem debug_append_inj {a b : Position} {r s : Str} (h : a.debug ++ r = b.debug ++ s) :
    Position.eq a b = true ∧ r = s := by
  simp only [Position.debug, List.append_assoc, List.cons_append, List.nil_append] at h
  have h1 := append_sep_inj rfl rfl (by decide) (List.cons.inj h).2
  have h2 := append_sep_inj rfl rfl (by decide) (List.cons.inj h1.2).2
  exact ⟨by simp [Position.eq, h1.1, h2.1], h2.2⟩

/-- **C58** A position is displayed as its line and then its column, in decimal digits: without a sign unless it is
negative, and without leading zeros. -/
theorem C58_display_text (p : Position) : ∃ sl l sc c,
    p.display = chars!"(L" ++ (sl ++ l) ++ chars!", C" ++ (sc ++ c) ++ chars!")" ∧
    p.debug = chars!"(" ++ (sl ++ l) ++ chars!", " ++ (sc ++ c) ++ chars!")" ∧
    sl = (if p.line < 0 then ['-'] else []) ∧ sc = (if p.column < 0 then ['-'] else []) ∧ l ≠ [] ∧ c ≠ [] ∧
    (∀ d ∈ l ++ c, IsDigit d) ∧ (l.head? = some '0' → l = ['0']) ∧ (c.head? = some '0' → c = ['0']) ∧
    signedVal sl l = p.line ∧ signedVal sc c = p.column := by
  obtain ⟨sl, l, h1, h2, h3, h4, h5, h6⟩ := displayInt_numeral p.line
  obtain ⟨sc, c, k1, k2, k3, k4, k5, k6⟩ := displayInt_numeral p.column
  refine ⟨sl, l, sc, c, ?_, ?_, h2, k2, h3, k3, fun d hd => ?_, h5, k5, h6, k6⟩
  · rw [← h1, ← k1]; rfl
  · rw [← h1, ← k1]; rfl
  · exact (List.mem_append.1 hd).elim (h4 d) (k4 d)

example : (⟨10, 0, 0, 0⟩ : Position).display = chars!"(L10, C0)" ∧
    (⟨-7, 305, 0, 0⟩ : Position).debug = chars!"(-7, 305)" := by decide +kernel

/-- **C58** Two positions are displayed alike if and only if they are equal (`==`). -/
theorem C58_display (a b : Position) : a.display = b.display ↔ Position.eq a b = true := by
  constructor
  · intro h
    simp only [Position.display, List.append_assoc, List.cons_append, List.nil_append] at h
    have h1 := append_sep_inj rfl rfl (by decide) (List.cons.inj (List.cons.inj h).2).2
    have h2 := append_sep_inj rfl rfl (by decide) (List.cons.inj (List.cons.inj h1.2).2).2
    simp [Position.eq, h1.1, h2.1]
  · intro h
    simp [Position.eq] at h
    simp [Position.display, h.1, h.2]

/-- **C58** The same for `{:?}`. -/
theorem C58_debug (a b : Position) : a.debug = b.debug ↔ Position.eq a b = true := by
  constructor
  · intro h
    exact (debug_append_inj (r := []) (s := []) (by rw [h])).1
  · intro h
    simp [Position.eq] at h
    simp [Position.debug, h.1, h.2]

/-- **C58** Two ranges are printed alike by `{:?}` if and only if they are equal (`==`). -/
theorem C58_range_debug (a b : Range) : a.debug = b.debug ↔ Range.eq a b = true := by
  constructor
  · intro h
    simp only [Range.debug, List.append_assoc] at h
    obtain ⟨h1, h2⟩ := debug_append_inj h
    obtain ⟨h3, -⟩ := debug_append_inj (List.append_cancel_left h2)
    simp [Range.eq, h1, h3]
  · intro h
    simp only [Range.eq, Bool.and_eq_true] at h
    simp [Range.debug, (C58_debug _ _).2 h.1, (C58_debug _ _).2 h.2]

/-- **C58** Two tokens are printed alike by `{:?}` if and only if their ranges are equal (`==`) and their types are
printed alike, whatever the printed form of types is. -/
theorem C58_token_debug (type : TokenType → Str) (a b : Token) :
    a.debug type = b.debug type ↔ Range.eq a.range b.range = true ∧ type a.tokenType = type b.tokenType := by
  constructor
  · intro h
    simp only [Token.debug, Range.debug, List.append_assoc] at h
    obtain ⟨h1, h2⟩ := debug_append_inj h
    obtain ⟨h3, h4⟩ := debug_append_inj (List.append_cancel_left h2)
    exact ⟨by simp [Range.eq, h1, h3], List.append_cancel_right (List.append_cancel_left h4)⟩
  · rintro ⟨h1, h2⟩
    simp [Token.debug, (C58_range_debug _ _).2 h1, h2]

/-- **C58** So two different tokens of one source are printed differently. -/
theorem C58_debug_source (type : TokenType → Str) {code : Str} {ts : List Token} (h : tokenize code = .ok (.ok ts))
    {t u : Token} (ht : t ∈ ts) (hu : u ∈ ts) : t.debug type = u.debug type ↔ t = u :=
  ⟨fun he => (C58_range_eq h ht hu).1 ((C58_token_debug type t u).1 he).1, fun he => by rw [he]⟩

-- Two tokens of the same type
example : ∃ t u, tokenize chars!"x x" = .ok (.ok [t, u]) ∧ t.debug (fun _ => chars!"X") = chars!"(1, 1) -> (1, 2)\nX\n" ∧
    u.debug (fun _ => chars!"X") = chars!"(1, 3) -> (1, 4)\nX\n" := by
  refine ⟨_, _, rfl, ?_⟩; decide +kernel

example : (⟨12, 3, 0, 0⟩ : Position).display = chars!"(L12, C3)" ∧
    (⟨⟨1, 1, 0, 0⟩, ⟨1, 12, 11, 11⟩⟩ : Range).debug = chars!"(1, 1) -> (1, 12)\n" := by decide +kernel

/-- **C58** Within one source, so, the display of a position tells where it is: positions in token ranges are displayed
alike if and only if they are at the same byte. -/
theorem C58_display_in_source {code : Str} {ts : List Token} (h : tokenize code = .ok (.ok ts)) {a b : Position}
    (ha : ∃ t ∈ ts, a = t.range.start ∨ a = t.range.stop) (hb : ∃ t ∈ ts, b = t.range.start ∨ b = t.range.stop) :
    a.display = b.display ↔ a.bytes = b.bytes := by
  rw [C58_display, (C09_position_order h ha hb).1]

example : ∃ ts, tokenize chars!"x\ny z" = .ok (.ok ts) ∧ ts.length = 3 ∧
    ts.map (·.range.start.display) = [chars!"(L1, C1)", chars!"(L2, C1)", chars!"(L2, C3)"] := by
  refine ⟨_, rfl, ?_⟩
  decide +kernel

end Lol
