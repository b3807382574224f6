import Verif.Lexer.Model
import Verif.Lexer.Spec

/-! # Helper lemmas: the parsing functions of the lexer against the specification -/

namespace Lol

/-! ## Strings and slices -/

@[simp] theorem utf8Len_nil : utf8Len [] = 0 := rfl
@[simp] theorem utf8Len_cons (c : Char) (s : Str) : utf8Len (c :: s) = c.utf8Size + utf8Len s := rfl

@[simp] theorem utf8Len_append (a b : Str) : utf8Len (a ++ b) = utf8Len a + utf8Len b := by
  induction a with
  | nil => simp
  | cons c a ih => simp [ih]; omega

theorem utf8Size_pos (c : Char) : 0 < c.utf8Size := Char.utf8Size_pos c

theorem utf8Size_ascii {c : Char} : c.utf8Size = 1 ↔ IsAscii c := by
  rw [Char.utf8Size_eq_one_iff]
  unfold IsAscii
  simp only [Char.toNat, UInt32.le_iff_toNat_le, UInt32.toNat_ofNat]
  show c.val.toNat ≤ 127 ↔ _
  omega

theorem utf8Len_ge_length (s : Str) : s.length ≤ utf8Len s := by
  induction s with
  | nil => simp
  | cons c s ih => have := utf8Size_pos c; simp; omega

theorem utf8Len_ascii {s : Str} (h : ∀ c ∈ s, IsAscii c) : utf8Len s = s.length := by
  induction s with
  | nil => rfl
  | cons c s ih =>
    have h1 := utf8Size_ascii.2 (h c (by simp))
    have h2 := ih (fun d hd => h d (by simp [hd]))
    simp [h1, h2]; omega

theorem utf8Len_eq_zero {s : Str} : utf8Len s = 0 ↔ s = [] := by
  cases s with
  | nil => simp
  | cons c s => have := utf8Size_pos c; simp; omega

theorem splitAtByte_append (a b : Str) : splitAtByte (a ++ b) (utf8Len a) = some (a, b) := by
  induction a with
  | nil => cases b <;> simp [splitAtByte]
  | cons c a ih =>
    have := utf8Size_pos c
    obtain ⟨n, hn⟩ : ∃ n, utf8Len (c :: a) = n + 1 := ⟨utf8Len (c :: a) - 1, by simp; omega⟩
    have h2 : n + 1 - c.utf8Size = utf8Len a := by rw [← hn]; simp
    have h3 : c.utf8Size ≤ n + 1 := by rw [← hn]; simp
    rw [hn]
    simp only [List.cons_append, splitAtByte, h2, ih, h3, if_true]

theorem splitAtByte_some {s a b : Str} {n : Nat} (h : splitAtByte s n = some (a, b)) :
    s = a ++ b ∧ utf8Len a = n := by
  induction s generalizing n a b with
  | nil =>
    cases n with
    | zero => simp [splitAtByte] at h; simp [h]
    | succ n => simp [splitAtByte] at h
  | cons c s ih =>
    cases n with
    | zero => simp [splitAtByte] at h; obtain ⟨rfl, rfl⟩ := h; simp
    | succ n =>
      simp only [splitAtByte] at h
      split at h
      · split at h
        · rename_i x y heq
          obtain ⟨h1, h2⟩ := ih heq
          simp at h
          obtain ⟨rfl, rfl⟩ := h
          refine ⟨by simp [h1], ?_⟩
          simp; omega
        · simp at h
      · simp at h

theorem splitAtByte_eq_some {s a b : Str} {n : Nat} :
    splitAtByte s n = some (a, b) ↔ s = a ++ b ∧ utf8Len a = n :=
  ⟨splitAtByte_some, fun ⟨h1, h2⟩ => by rw [h1, ← h2]; exact splitAtByte_append a b⟩

theorem sliceTo_append (a b : Str) : sliceTo (a ++ b) (utf8Len a) = .ok a := by
  simp [sliceTo, splitAtByte_append]

theorem sliceFrom_append (a b : Str) : sliceFrom (a ++ b) (utf8Len a) = .ok b := by
  simp [sliceFrom, splitAtByte_append]

theorem sliceTo_of {s a b : Str} {n : Nat} (h1 : s = a ++ b) (h2 : utf8Len a = n) :
    sliceTo s n = .ok a := by rw [h1, ← h2]; exact sliceTo_append a b

theorem sliceFrom_of {s a b : Str} {n : Nat} (h1 : s = a ++ b) (h2 : utf8Len a = n) :
    sliceFrom s n = .ok b := by rw [h1, ← h2]; exact sliceFrom_append a b

theorem sliceTo_cases (s : Str) (n : Nat) :
    (∃ a b, s = a ++ b ∧ utf8Len a = n ∧ sliceTo s n = .ok a) ∨
    ((∀ a b, s = a ++ b → utf8Len a ≠ n) ∧ sliceTo s n = .panic .strSlice) := by
  cases h : splitAtByte s n with
  | none =>
    right
    refine ⟨?_, by simp [sliceTo, h]⟩
    intro a b h1 h2
    rw [splitAtByte_eq_some.2 ⟨h1, h2⟩] at h
    simp at h
  | some p =>
    obtain ⟨a, b⟩ := p
    obtain ⟨h1, h2⟩ := splitAtByte_some h
    exact .inl ⟨a, b, h1, h2, by simp [sliceTo, h]⟩

theorem slice_of {s a b c : Str} {m n : Nat} (h : s = a ++ b ++ c) (ha : utf8Len a = m)
    (hb : utf8Len (a ++ b) = n) : slice s m n = .ok b := by
  have h1 : sliceTo s n = .ok (a ++ b) := sliceTo_of h hb
  have h2 : sliceFrom (a ++ b) m = .ok b := sliceFrom_of rfl ha
  have h3 : m ≤ n := by rw [← ha, ← hb]; simp
  simp [slice, h1, h2, h3]

theorem isPrefixOf_iff {p s : Str} : p.isPrefixOf s = true ↔ p <+: s := List.isPrefixOf_iff_prefix

/-! ## Searching -/

theorem findSub_some {pat s : Str} {n : Nat} (h : findSub pat s = some n) :
    ∃ u v, s = u ++ (pat ++ v) ∧ utf8Len u = n ∧
      ∀ u' v', s = u' ++ (pat ++ v') → u.length ≤ u'.length := by
  induction s generalizing n with
  | nil =>
    simp only [findSub] at h
    split at h
    · rename_i hp
      obtain ⟨v, hv⟩ := isPrefixOf_iff.1 hp
      simp at h
      exact ⟨[], v, by simp [hv], by simp [h], by simp⟩
    · simp at h
  | cons c s ih =>
    simp only [findSub] at h
    split at h
    · rename_i hp
      obtain ⟨v, hv⟩ := isPrefixOf_iff.1 hp
      simp at h
      exact ⟨[], v, by simp [hv], by simp [h], by simp⟩
    · rename_i hp
      split at h
      · rename_i m hm
        obtain ⟨u, v, h1, h2, h3⟩ := ih hm
        simp at h
        refine ⟨c :: u, v, by simp [h1], by simp [h2, h], ?_⟩
        intro u' v' hu
        cases u' with
        | nil => exact absurd (isPrefixOf_iff.2 ⟨v', by simpa using hu.symm⟩) hp
        | cons d u' =>
          simp at hu
          have := h3 u' v' (by simpa using hu.2)
          simp; omega
      · simp at h

theorem findSub_none {pat s : Str} (h : findSub pat s = none) : ∀ u v, s ≠ u ++ (pat ++ v) := by
  induction s with
  | nil =>
    intro u v hu
    simp only [findSub] at h
    split at h
    · simp at h
    · rename_i hp
      simp only [List.nil_eq, List.append_eq_nil_iff] at hu
      exact hp (isPrefixOf_iff.2 ⟨[], by simp [hu.2.1]⟩)
  | cons c s ih =>
    simp only [findSub] at h
    split at h
    · simp at h
    · rename_i hp
      split at h
      · simp at h
      · rename_i hn
        intro u v hu
        cases u with
        | nil => exact hp (isPrefixOf_iff.2 ⟨v, by simpa using hu.symm⟩)
        | cons d u =>
          simp at hu
          exact ih hn u v (by simpa using hu.2)

end Lol
