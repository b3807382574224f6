import Verif.Lexer.Equality
import Verif.Lexer.RenderLemmas
import Verif.Props.LexerPositions

/-! # Properties of float literals (C66) -/

namespace Lol

/-! ## C66 -/

/-- **C66** Every literal with a dot and at least one digit has a value, and only one: the nearest `f32`. -/
theorem C66_value (sgn ds es : Str) : ∃ x, FloatVal sgn ds es x ∧ ∀ y, FloatVal sgn ds es y → y = x :=
  ⟨_, floatVal_iff.2 rfl, fun _ h => floatVal_iff.1 h⟩

-- 0.1 and -0.1, a literal between two `f32` numbers and a tie
example : FloatVal [] chars!"0" chars!"1" ⟨false, 0x3DCCCCCD⟩ ∧ FloatVal ['-'] chars!"" chars!"10" ⟨true, 0x3DCCCCCD⟩ ∧
    FloatVal ['+'] chars!"16777217" chars!"" ⟨false, 0x4B800000⟩ ∧
    FloatVal [] chars!"16777219" chars!"0" ⟨false, 0x4B800002⟩ := by
  refine ⟨floatVal_iff.2 ?_, floatVal_iff.2 ?_, floatVal_iff.2 ?_, floatVal_iff.2 ?_⟩ <;> decide +kernel

-- zeros, the smallest `f32`, the largest, and infinity
example : FloatVal ['-'] chars!"000" chars!"00" ⟨true, 0⟩ ∧
    FloatVal [] [] (List.replicate 44 '0' ++ ['1']) ⟨false, 1⟩ ∧ FloatVal [] [] (List.replicate 45 '0' ++ ['1']) ⟨false, 0⟩ ∧
    FloatVal [] chars!"340282346638528859811704183484516925440" [] ⟨false, 0x7F7FFFFF⟩ ∧
    FloatVal [] chars!"340282356779733661637539395458142568448" [] ⟨false, 0x7F800000⟩ := by
  refine ⟨floatVal_iff.2 ?_, floatVal_iff.2 ?_, floatVal_iff.2 ?_, floatVal_iff.2 ?_, floatVal_iff.2 ?_⟩ <;> decide +kernel

/-- **C66** The payload of a `Float` token is the value of the literal under its range; it is never NaN. -/
theorem C66_token {code : Str} {ts : List Token} (h : tokenize code = .ok (.ok ts)) {t : Token} (ht : t ∈ ts) {x : F32}
    (hx : t.tokenType = .value (.number (.float x))) :
    ∃ sgn ds es, slice code t.range.start.bytes.toNat t.range.stop.bytes.toNat = .ok (sgn ++ ds ++ '.' :: es) ∧
      IsSign sgn ∧ ds ++ es ≠ [] ∧ (∀ d ∈ ds ++ es, IsDigit d) ∧ FloatVal sgn ds es x ∧ x.isNaN = false := by
  obtain ⟨lex, h1, h2⟩ := C06_lexeme_spells_type h ht (fun s hs => by rw [hx] at hs; cases hs)
  rw [hx] at h2
  cases h2 with
  | float sgn ds es x g1 g2 g3 g4 g5 =>
    refine ⟨sgn, ds, es, h1, g1, g2, ?_, g5, ?_⟩
    · intro d hd
      rcases List.mem_append.1 hd with hd | hd
      · exact g3 d hd
      · exact g4 d hd
    · exact decide_eq_false (Nat.not_lt_of_le g5.2.le)

example : ∃ ts, tokenize chars!"x R -0.1, VISIBLE x" = .ok (.ok ts) ∧
    (ts.map (·.tokenType))[2]? = some (.value (.number (.float ⟨true, 0x3DCCCCCD⟩))) := by
  refine ⟨_, rfl, ?_⟩
  decide +kernel

/-- **C66** No source has a NaN. -/
theorem C66_not_nan {code : Str} {ts : List Token} (h : tokenize code = .ok (.ok ts)) {t : Token} (ht : t ∈ ts) (x : F32)
    (hx : t.tokenType = .value (.number (.float x))) : x.bits ≤ infBits := by
  obtain ⟨_, _, _, _, _, _, _, hv, _⟩ := C66_token h ht hx
  exact hv.2.le

example : ∃ ts, tokenize chars!"x R -1.5 " = .ok (.ok ts) ∧
    ∃ t ∈ ts, t.tokenType = .value (.number (.float ⟨true, 0x3FC00000⟩)) := by
  refine ⟨_, rfl, ?_⟩
  decide +kernel

/-- **C66** Only NaN is not equal to itself. -/
theorem C66_eq_refl (x : F32) : F32.eq x x = true ↔ x.bits ≤ infBits := by
  simp [F32.eq, F32.isNaN, infBits]

theorem f32Distance_scale (n d b k : Nat) : f32Distance (n * k) (d * k) b = f32Distance n d b * k := by
  unfold f32Distance
  have h1 : n * k * 2 ^ 149 = n * 2 ^ 149 * k := Nat.mul_right_comm ..
  have h2 : f32Units b * (d * k) = f32Units b * d * k := (Nat.mul_assoc ..).symm
  rw [h1, h2, Int.natCast_mul (n * 2 ^ 149), Int.natCast_mul (f32Units b * d), ← Int.sub_mul, Int.natAbs_mul,
    Int.natAbs_natCast]

theorem Nearest.scale {n d b k : Nat} (hk : 0 < k) (h : Nearest n d b) : Nearest (n * k) (d * k) b := by
  unfold Nearest at h ⊢
  rw [← Nat.mul_assoc]
  split at h
  · rename_i hc
    rw [if_pos (Nat.mul_le_mul_right k hc)]
    exact h
  · rename_i hc
    rw [if_neg fun h' => hc (Nat.le_of_mul_le_mul_right h' hk)]
    refine ⟨h.1, fun y hy => ?_⟩
    rw [f32Distance_scale, f32Distance_scale]
    obtain ⟨h1, h2⟩ := h.2 y hy
    exact ⟨Nat.mul_le_mul_right k h1, fun he => h2 (Nat.eq_of_mul_eq_mul_right hk he)⟩

theorem Nearest.mono_same {n n' d b b' : Nat} (hd : 0 < d) (h : Nearest n d b) (h' : Nearest n' d b') (hle : n ≤ n') :
    b ≤ b' := by
  have hb := h.le
  by_cases hi : (2 ^ 128 - 2 ^ 103) * d ≤ n'
  · have : b' = infBits := by
      unfold Nearest at h'
      rwa [if_pos hi] at h'
    omega
  · have hj : ¬ (2 ^ 128 - 2 ^ 103) * d ≤ n := fun h => hi (Nat.le_trans h hle)
    rcases Nat.lt_or_ge b' b with hlt | hge
    · rcases Nat.lt_or_eq_of_le hle with hn | rfl
      · unfold Nearest at h h'
        rw [if_neg hi] at h'
        rw [if_neg hj] at h
        have e1 := (h.2 b' h'.1).1
        have e2 := (h'.2 b h.1).1
        have m1 := Nat.mul_lt_mul_of_pos_right (f32Units_lt hlt) hd
        have m2 := Nat.mul_lt_mul_of_pos_right hn (show 0 < 2 ^ 149 from Nat.pow_pos (by omega))
        unfold f32Distance at e1 e2
        clear hi hj h h' hb
        generalize (2 : Nat) ^ 149 = P at *
        generalize f32Units b * d = U at *
        generalize f32Units b' * d = U' at *
        generalize n * P = A at *
        generalize n' * P = A' at *
        omega
      · rw [h.unique hd h']
        exact Nat.le_refl _
    · exact hge

theorem Nearest.mono {n n' d d' b b' : Nat} (hd : 0 < d) (hd' : 0 < d') (h : Nearest n d b) (h' : Nearest n' d' b')
    (hle : n * d' ≤ n' * d) : b ≤ b' := by
  have h1 := h.scale hd'
  have h2 := h'.scale hd
  rw [Nat.mul_comm d' d] at h2
  exact h1.mono_same (Nat.mul_pos hd hd') h2 hle

/-- **C66** A larger literal does not get a smaller value. (The number of a literal is `decVal (ds ++ es)` divided by
`10 ^ es.length`.) -/
theorem C66_monotone {sgn ds es ds' es' : Str} {x y : F32} (hx : FloatVal sgn ds es x) (hy : FloatVal sgn ds' es' y)
    (h : decVal (ds ++ es) * 10 ^ es'.length ≤ decVal (ds' ++ es') * 10 ^ es.length) : x.bits ≤ y.bits :=
  hx.2.mono (Nat.pow_pos (by omega)) (Nat.pow_pos (by omega)) hy.2 h

example : decVal (chars!"1" ++ chars!"49") * 10 ^ chars!"5".length ≤ decVal (chars!"1" ++ chars!"5") * 10 ^ chars!"49".length := by
  decide

/-- **C66** Two literals for the same number have the same value, whatever zeros they have. -/
theorem C66_same_number {sgn ds es ds' es' : Str} {x y : F32} (hx : FloatVal sgn ds es x) (hy : FloatVal sgn ds' es' y)
    (h : decVal (ds ++ es) * 10 ^ es'.length = decVal (ds' ++ es') * 10 ^ es.length) : x = y := by
  have h1 := C66_monotone hx hy (Nat.le_of_eq h)
  have h2 := C66_monotone hy hx (Nat.le_of_eq h.symm)
  obtain ⟨nx, bx⟩ := x
  obtain ⟨ny, byy⟩ := y
  have h3 : (nx = true ↔ ny = true) := hx.1.trans hy.1.symm
  rw [F32.mk.injEq]
  exact ⟨by cases nx <;> cases ny <;> simp_all, Nat.le_antisymm h1 h2⟩

example : decVal (chars!"01" ++ chars!"500") * 10 ^ chars!"5".length =
    decVal (chars!"1" ++ chars!"5") * 10 ^ chars!"500".length := by
  decide

/-- **C66** A literal for an `f32` number has exactly this value. -/
theorem C66_exact {sgn ds es : Str} {x : F32} (hx : FloatVal sgn ds es x) {b : Nat} (hb : b < infBits)
    (h : decVal (ds ++ es) * 2 ^ 149 = f32Units b * 10 ^ es.length) : x.bits = b :=
  hx.2.unique (Nat.pow_pos (by omega)) (nearest_exact (Nat.pow_pos (by omega)) hb h)

-- 0.75
example : decVal (chars!"0" ++ chars!"75") * 2 ^ 149 = f32Units 0x3F400000 * 10 ^ chars!"75".length := by
  decide +kernel

/-- **C66** Every `f32` but NaN is the payload of a token of some source. -/
theorem C66_every_value {x : F32} (h : x.isNaN = false) : ∃ code ts, tokenize code = .ok (.ok ts) ∧
    ts.map (·.tokenType) = [.value (.number (.float x))] := by
  have hw : Writable (.value (.number (.float x))) := by
    have := of_decide_eq_false h
    exact Nat.le_of_not_lt this
  obtain ⟨lex, hl⟩ := exists_writes hw
  obtain ⟨tss, h1, h2, -⟩ := (WritesLines.cons (WritesLine.cons (blanks := []) hl (by simp) .nil) .nil).tokenize
  refine ⟨_, _, h1, ?_⟩
  rw [List.map_flatten, h2]
  rfl

example : (⟨true, 0x7F800000⟩ : F32).isNaN = false ∧ (⟨false, 12345⟩ : F32).isNaN = false := by decide

theorem f32Units_inj {a b : Nat} (h : f32Units a = f32Units b) : a = b := by
  rcases Nat.lt_trichotomy a b with hlt | rfl | hlt
  · have := f32Units_lt hlt; omega
  · rfl
  · have := f32Units_lt hlt; omega

/-- **C66** `==` compares numbers: 0.0 and -0.0 are equal, NaN is not equal to anything. -/
theorem C66_eq_iff (x y : F32) : F32.eq x y = true ↔ x.bits ≤ infBits ∧ y.bits ≤ infBits ∧ x.number = y.number := by
  obtain ⟨nx, bx⟩ := x
  obtain ⟨ny, byy⟩ := y
  have h0 : f32Units 0 = 0 := rfl
  have hp : ∀ b, 0 < b → 0 < f32Units b := fun b hb => by have := f32Units_lt hb; omega
  have hx := hp bx
  have hy := hp byy
  simp only [F32.eq, F32.isNaN, F32.number, Bool.and_eq_true, Bool.not_eq_true', decide_eq_false_iff_not, Bool.or_eq_true,
    beq_iff_eq, F32.mk.injEq, Nat.not_lt, and_assoc]
  refine and_congr_right fun _ => and_congr_right fun _ => ?_
  constructor
  · rintro (⟨rfl, rfl⟩ | ⟨rfl, rfl⟩)
    · rfl
    · rw [h0]
      cases nx <;> cases ny <;> rfl
  · intro h
    by_cases e : bx = 0
    · subst e
      right
      refine ⟨rfl, ?_⟩
      rw [h0] at h
      rcases Nat.eq_zero_or_pos byy with e | e
      · exact e
      · have := hy e
        cases nx <;> cases ny <;> simp at h <;> omega
    · have hx := hx (by omega)
      have hu : (nx = ny) ∧ f32Units bx = f32Units byy := by
        cases nx <;> cases ny <;> simp at h ⊢ <;> omega
      exact .inl ⟨hu.1, f32Units_inj hu.2⟩

-- different literals, the same number
example : F32.eq ⟨false, 0⟩ ⟨true, 0⟩ = true ∧ F32.eq ⟨false, 0x7F800001⟩ ⟨false, 0x7F800001⟩ = false ∧
    F32.eq ⟨false, 0x7F800000⟩ ⟨true, 0x7F800000⟩ = false := by
  decide

end Lol
