import Verif.Lexer.Float
import Verif.Lexer.FloatSpec

/-! # Lemmas: rounding to `f32` -/

namespace Lol

theorem f32Units_of {e q : Nat} (h : e = 0 ∨ 2 ^ 23 ≤ q) (hq : q ≤ 2 ^ 24) :
    f32Units (e * 2 ^ 23 + q) = q * 2 ^ e := by
  unfold f32Units
  rcases Nat.lt_or_ge q (2 ^ 23) with h1 | h1
  · have he : e = 0 := by omega
    subst he
    rw [if_pos (by omega)]
    simp
  · rw [if_neg (by omega)]
    rcases Nat.lt_or_ge q (2 ^ 24) with h2 | h2
    · have hd : (e * 2 ^ 23 + q) / 2 ^ 23 = e + 1 := by omega
      have hm : 2 ^ 23 + (e * 2 ^ 23 + q) % 2 ^ 23 = q := by omega
      rw [hd, hm]
      simp
    · have hd : (e * 2 ^ 23 + q) / 2 ^ 23 = e + 2 := by omega
      have hm : (e * 2 ^ 23 + q) % 2 ^ 23 = 0 := by omega
      have hq : q = 2 ^ 23 * 2 := by omega
      rw [hd, hm, hq, Nat.add_zero, Nat.mul_assoc, show e + 2 - 1 = e + 1 from rfl, Nat.pow_succ 2 e, Nat.mul_comm (2 ^ e)]

/-- Bits as exponent and significand. -/
theorem exists_units (b : Nat) : ∃ e q, (e = 0 ∨ 2 ^ 23 ≤ q) ∧ q < 2 ^ 24 ∧ b = e * 2 ^ 23 + q := by
  rcases Nat.lt_or_ge b (2 ^ 24) with h | h
  · exact ⟨0, b, .inl rfl, h, by omega⟩
  · exact ⟨b / 2 ^ 23 - 1, 2 ^ 23 + b % 2 ^ 23, .inr (by omega), by omega, by omega⟩

theorem f32Units_lt_succ (b : Nat) : f32Units b < f32Units (b + 1) := by
  obtain ⟨e, q, h1, h2, rfl⟩ := exists_units b
  rw [f32Units_of h1 (by omega), Nat.add_assoc, f32Units_of (by omega) (by omega)]
  exact Nat.mul_lt_mul_of_pos_right (by omega) (Nat.pow_pos (by omega))

theorem f32Units_lt {a b : Nat} (h : a < b) : f32Units a < f32Units b := by
  induction b with
  | zero => omega
  | succ b ih =>
    rcases Nat.lt_or_ge a b with h1 | h1
    · exact Nat.lt_trans (ih h1) (f32Units_lt_succ b)
    · have : a = b := by omega
      subst this
      exact f32Units_lt_succ a

theorem f32Units_le {a b : Nat} (h : a ≤ b) : f32Units a ≤ f32Units b := by
  rcases Nat.lt_or_eq_of_le h with h | rfl
  · exact Nat.le_of_lt (f32Units_lt h)
  · exact Nat.le_refl _

/-- The interval in which a fraction lies. -/
theorem exists_interval (n : Nat) {d : Nat} (hd : 0 < d) :
    ∃ e q r, e = Nat.log2 (n * 2 ^ 149 / d) - 23 ∧ (e = 0 ∨ 2 ^ 23 ≤ q) ∧ q < 2 ^ 24 ∧ r < d * 2 ^ e ∧
      q = n * 2 ^ 149 / (d * 2 ^ e) ∧ r = n * 2 ^ 149 % (d * 2 ^ e) ∧ n * 2 ^ 149 = q * (d * 2 ^ e) + r := by
  refine ⟨_, _, _, rfl, ?_, ?_, ?_, rfl, rfl, ?_⟩
  · generalize n * 2 ^ 149 = A
    rcases Nat.lt_or_ge (Nat.log2 (A / d)) 24 with h | h
    · left; omega
    · right
      rw [← Nat.div_div_eq_div_mul]
      have hx : A / d ≠ 0 := by
        intro h0
        rw [h0] at h
        simp at h
      have := (Nat.le_log2 hx).1 (Nat.le_refl _)
      rw [Nat.le_div_iff_mul_le (Nat.pow_pos (by omega)), ← Nat.pow_add]
      rwa [show 23 + (Nat.log2 (A / d) - 23) = Nat.log2 (A / d) by omega]
  · generalize n * 2 ^ 149 = A
    rw [← Nat.div_div_eq_div_mul, Nat.div_lt_iff_lt_mul (Nat.pow_pos (by omega)), ← Nat.pow_add]
    have h1 : A / d < 2 ^ (Nat.log2 (A / d) + 1) := Nat.lt_log2_self
    exact Nat.lt_of_lt_of_le h1 (Nat.pow_le_pow_right (by omega) (by omega))
  · exact Nat.mod_lt _ (Nat.mul_pos hd (Nat.pow_pos (by omega)))
  · exact (Nat.div_add_mod' _ _).symm

theorem nearest_aux {A D b q r d e m : Nat} (hD : D = d * 2 ^ e) (hq : e = 0 ∨ 2 ^ 23 ≤ q) (hq' : q < 2 ^ 24)
    (hr : r < D) (hA : A = q * D + r)
    (hm : m = if 2 * r < D then q else if D < 2 * r then q + 1 else if q % 2 = 0 then q else q + 1)
    (hb : b = e * 2 ^ 23 + m) (y : Nat) :
    ((A : Nat) - (f32Units b * d : Nat) : Int).natAbs ≤ ((A : Nat) - (f32Units y * d : Nat) : Int).natAbs ∧
      (((A : Nat) - (f32Units b * d : Nat) : Int).natAbs = ((A : Nat) - (f32Units y * d : Nat) : Int).natAbs →
        y = b ∨ b % 2 = 0) := by
  have hd : 0 < d := by
    rcases Nat.eq_zero_or_pos d with rfl | h
    · simp at hD; omega
    · exact h
  have u0 : f32Units (e * 2 ^ 23 + q) * d = q * D := by
    rw [f32Units_of hq (by omega), hD, Nat.mul_assoc, Nat.mul_comm (2 ^ e)]
  have u1 : f32Units (e * 2 ^ 23 + q + 1) * d = q * D + D := by
    rw [Nat.add_assoc, f32Units_of (by omega) (by omega), ← Nat.succ_mul, hD, Nat.mul_assoc, Nat.mul_comm (2 ^ e)]
  have hlow : y < e * 2 ^ 23 + q → f32Units y * d < q * D := by
    intro h
    rw [← u0]
    exact Nat.mul_lt_mul_of_pos_right (f32Units_lt h) hd
  have hhigh : e * 2 ^ 23 + q + 1 < y → q * D + D < f32Units y * d := by
    intro h
    rw [← u1]
    exact Nat.mul_lt_mul_of_pos_right (f32Units_lt h) hd
  have hb0 : b = e * 2 ^ 23 + q ∧ 2 * r ≤ D ∧ (2 * r = D → q % 2 = 0) ∨
      b = e * 2 ^ 23 + q + 1 ∧ D ≤ 2 * r ∧ (2 * r = D → q % 2 = 1) := by
    split at hm
    · left; omega
    · split at hm
      · right; omega
      · split at hm
        · left; omega
        · right; omega
  have hy : y < e * 2 ^ 23 + q ∨ y = e * 2 ^ 23 + q ∨ y = e * 2 ^ 23 + q + 1 ∨ e * 2 ^ 23 + q + 1 < y := by omega
  have hy' : f32Units y * d < q * D ∧ y ≠ b ∨ y = e * 2 ^ 23 + q ∧ f32Units y * d = q * D ∨
      y = e * 2 ^ 23 + q + 1 ∧ f32Units y * d = q * D + D ∨ q * D + D < f32Units y * d ∧ y ≠ b := by
    rcases hy with h | h | h | h
    · exact .inl ⟨hlow h, by omega⟩
    · exact .inr (.inl ⟨h, by rw [h, u0]⟩)
    · exact .inr (.inr (.inl ⟨h, by rw [h, u1]⟩))
    · exact .inr (.inr (.inr ⟨hhigh h, by omega⟩))
  have hub : b = e * 2 ^ 23 + q ∧ f32Units b * d = q * D ∨ b = e * 2 ^ 23 + q + 1 ∧ f32Units b * d = q * D + D := by
    rcases hb0 with ⟨h, _⟩ | ⟨h, _⟩
    · exact .inl ⟨h, by rw [h, u0]⟩
    · exact .inr ⟨h, by rw [h, u1]⟩
  clear hlow hhigh u0 u1 hD hm
  generalize f32Units y * d = Y at *
  generalize f32Units b * d = B at *
  generalize q * D = Q at *
  omega

theorem infUnits : f32Units infBits = 2 ^ 24 * 2 ^ 253 := by
  have h := f32Units_of (e := 253) (q := 2 ^ 24) (.inr (by omega)) (Nat.le_refl _)
  rw [← h]
  exact congrArg f32Units (by unfold infBits; omega)

theorem bound_units (n d : Nat) : (2 ^ 128 - 2 ^ 103) * d ≤ n ↔ (2 ^ 25 - 1) * (d * 2 ^ 252) ≤ n * 2 ^ 149 := by
  have e1 : (2 ^ 25 - 1) * (d * 2 ^ 252) = (2 ^ 128 - 2 ^ 103) * d * 2 ^ 149 := by
    rw [Nat.mul_right_comm _ d, Nat.mul_comm d, ← Nat.mul_assoc]
  rw [e1]
  exact (Nat.mul_le_mul_right_iff (Nat.pow_pos (by omega))).symm

theorem twice_pow (d : Nat) : d * 2 ^ 253 = 2 * (d * 2 ^ 252) := by
  rw [show (2 : Nat) ^ 253 = 2 * 2 ^ 252 by decide +kernel, Nat.mul_left_comm]

theorem infUnits_mul (d : Nat) : f32Units infBits * d = 2 ^ 25 * (d * 2 ^ 252) := by
  rw [infUnits, Nat.mul_assoc, Nat.mul_comm _ d, twice_pow, ← Nat.mul_assoc]

theorem lastUnits_mul (d : Nat) : f32Units (infBits - 1) * d = (2 ^ 25 - 2) * (d * 2 ^ 252) := by
  have h := f32Units_of (e := 253) (q := 2 ^ 24 - 1) (.inr (by omega)) (by omega)
  rw [show infBits - 1 = 253 * 2 ^ 23 + (2 ^ 24 - 1) by unfold infBits; omega, h, Nat.mul_assoc, Nat.mul_comm _ d,
    twice_pow, ← Nat.mul_assoc]

theorem inf_iff {A d e q r m W : Nat} (hW1 : f32Units (infBits - 1) * d = (2 ^ 25 - 2) * W)
    (hW2 : f32Units infBits * d = 2 ^ 25 * W) (hW3 : d * 2 ^ 253 = 2 * W) (hq : e = 0 ∨ 2 ^ 23 ≤ q) (hq' : q < 2 ^ 24) (hr : r < d * 2 ^ e)
    (hA : A = q * (d * 2 ^ e) + r)
    (hm : m = if 2 * r < d * 2 ^ e then q else if d * 2 ^ e < 2 * r then q + 1 else if q % 2 = 0 then q else q + 1) :
    infBits ≤ e * 2 ^ 23 + m ↔ (2 ^ 25 - 1) * W ≤ A := by
  have u0 : f32Units (e * 2 ^ 23 + q) * d = q * (d * 2 ^ e) := by
    rw [f32Units_of hq (by omega), Nat.mul_assoc, Nat.mul_comm (2 ^ e)]
  have u1 : f32Units (e * 2 ^ 23 + q + 1) * d = q * (d * 2 ^ e) + d * 2 ^ e := by
    rw [Nat.add_assoc, f32Units_of (by omega) (by omega), ← Nat.succ_mul, Nat.mul_assoc, Nat.mul_comm (2 ^ e)]
  rcases Nat.lt_or_ge (e * 2 ^ 23 + q + 1) infBits with h1 | h1
  · have hle := Nat.mul_le_mul_right d (f32Units_le (show e * 2 ^ 23 + q + 1 ≤ infBits - 1 by omega))
    rw [u1, hW1] at hle
    have hmq : m ≤ q + 1 := by
      rw [hm]
      repeat' split
      all_goals omega
    clear hm u0 u1
    clear hW1 hW2 hW3
    generalize d * 2 ^ e = D at *
    generalize q * D = Q at *
    omega
  · rcases Nat.lt_or_ge (e * 2 ^ 23 + q) infBits with h2 | h2
    · have he2 : e = 253 ∧ q = 2 ^ 24 - 1 := by
        clear hm u0 u1 hA hr
        unfold infBits at h1 h2
        omega
      obtain ⟨rfl, rfl⟩ := he2
      clear u0 u1 h1 h2 hq hq'
      rw [hA, hW3]
      rw [hW3] at hm hr
      clear hW1 hW2 hW3
      have hcond : m = 2 ^ 24 ∧ W ≤ r ∨ m = 2 ^ 24 - 1 ∧ r < W := by
        rw [hm]
        repeat' split
        all_goals omega
      clear hm hA
      unfold infBits
      omega
    · have hle := Nat.mul_le_mul_right d (f32Units_le h2)
      rw [u0, hW2] at hle
      have hmq : q ≤ m := by
        rw [hm]
        repeat' split
        all_goals omega
      clear hm u0 u1
      clear hW1 hW2 hW3
      generalize d * 2 ^ e = D at *
      generalize q * D = Q at *
      omega

/-- The computed `f32` is the nearest. -/
theorem nearestBits_nearest (n : Nat) {d : Nat} (hd : 0 < d) : Nearest n d (nearestBits n d) := by
  obtain ⟨e, q, r, he, hq, hq', hr, hqd, hrd, hA⟩ := exists_interval n hd
  have hnb : nearestBits n d = min infBits (e * 2 ^ 23 + roundHalfEven (n * 2 ^ 149) (d * 2 ^ e)) := by
    rw [he]
    rfl
  have hm : roundHalfEven (n * 2 ^ 149) (d * 2 ^ e) = if 2 * r < d * 2 ^ e then q else if d * 2 ^ e < 2 * r then q + 1
      else if q % 2 = 0 then q else q + 1 := by
    rw [roundHalfEven, ← hqd, ← hrd]
  rw [hnb]
  clear hnb hqd hrd he
  have hiff := inf_iff (lastUnits_mul d) (infUnits_mul d) (twice_pow d) hq hq' hr hA hm
  rw [← bound_units] at hiff
  have hnear := nearest_aux rfl hq hq' hr hA hm rfl
  clear hm
  unfold Nearest
  split
  · rename_i h
    exact Nat.min_eq_left (hiff.2 h)
  · rename_i h
    have hlt := Nat.lt_of_not_le fun h1 => h (hiff.1 h1)
    rw [Nat.min_eq_right (Nat.le_of_lt hlt)]
    exact ⟨hlt, fun y _ => hnear y⟩

/-- There is only one nearest `f32`. -/
theorem Nearest.unique {n d b b' : Nat} (hd : 0 < d) (h : Nearest n d b) (h' : Nearest n d b') : b = b' := by
  unfold Nearest at h h'
  split at h
  · rename_i hc
    rw [if_pos hc] at h'
    rw [h, h']
  · rename_i hc
    rw [if_neg hc] at h'
    have key : ∀ {a a' : Nat}, a < a' → a' < infBits →
        (∀ y < infBits, f32Distance n d a ≤ f32Distance n d y ∧ (f32Distance n d a = f32Distance n d y → y = a ∨ a % 2 = 0)) →
        (∀ y < infBits, f32Distance n d a' ≤ f32Distance n d y ∧ (f32Distance n d a' = f32Distance n d y → y = a' ∨ a' % 2 = 0)) →
        False := by
      intro a a' hlt hinf h1 h2
      have e1 := h1 a' hinf
      have e2 := h2 a (by omega)
      have e3 := h1 (a + 1) (by omega)
      have heq : f32Distance n d a = f32Distance n d a' := by omega
      have p1 := e1.2 heq
      have p2 := e2.2 heq.symm
      have hlt' : a + 1 < a' := by omega
      have m1 := Nat.mul_lt_mul_of_pos_right (f32Units_lt_succ a) hd
      have m2 := Nat.mul_lt_mul_of_pos_right (f32Units_lt hlt') hd
      unfold f32Distance at heq e3
      generalize n * 2 ^ 149 = A at *
      generalize f32Units a * d = U at *
      generalize f32Units a' * d = U' at *
      generalize f32Units (a + 1) * d = W at *
      omega
    rcases Nat.lt_trichotomy b b' with hlt | rfl | hlt
    · exact (key hlt h'.1 h.2 h'.2).elim
    · rfl
    · exact (key hlt h.1 h'.2 h.2).elim

theorem nearest_iff {n d b : Nat} (hd : 0 < d) : Nearest n d b ↔ b = nearestBits n d :=
  ⟨fun h => h.unique hd (nearestBits_nearest n hd), fun h => h ▸ nearestBits_nearest n hd⟩

theorem Nearest.le {n d b : Nat} (h : Nearest n d b) : b ≤ infBits := by
  unfold Nearest at h
  split at h
  · exact Nat.le_of_eq h
  · exact Nat.le_of_lt h.1

/-- An `f32` is the nearest to itself. -/
theorem nearest_exact {n d b : Nat} (hd : 0 < d) (hb : b < infBits) (h : n * 2 ^ 149 = f32Units b * d) :
    Nearest n d b := by
  unfold Nearest
  rw [if_neg]
  · refine ⟨hb, fun y _ => ?_⟩
    unfold f32Distance
    rw [h]
    refine ⟨by omega, fun he => .inl ?_⟩
    have he' : f32Units y * d = f32Units b * d := by
      generalize f32Units y * d = Y at *
      generalize f32Units b * d = B at *
      omega
    rcases Nat.lt_trichotomy y b with hlt | rfl | hlt
    · have := Nat.mul_lt_mul_of_pos_right (f32Units_lt hlt) hd
      omega
    · rfl
    · have := Nat.mul_lt_mul_of_pos_right (f32Units_lt hlt) hd
      omega
  · rw [bound_units, h]
    have h1 := Nat.mul_le_mul_right d (f32Units_le (show b ≤ infBits - 1 by omega))
    rw [lastUnits_mul] at h1
    have hW : 0 < d * 2 ^ 252 := Nat.mul_pos hd (Nat.pow_pos (by omega))
    have hlt : (2 ^ 25 - 2) * (d * 2 ^ 252) < (2 ^ 25 - 1) * (d * 2 ^ 252) := Nat.mul_lt_mul_of_pos_right (by omega) hW
    exact Nat.not_le_of_lt (Nat.lt_of_le_of_lt h1 hlt)

theorem nearestBits_le (n d : Nat) : nearestBits n d ≤ infBits := Nat.min_le_left _ _

end Lol
