import Verif.Lexer.TidySpec
import Verif.Lexer.LayoutLemmas

/-! # Lemmas for the shortest white space (C86) -/

namespace Lol

/-- `Cuts` as a computation. -/
def cutsB : Nat → Str → Bool
  | 0, v => v.isEmpty
  | n + 1, v => v.isEmpty || [' '].isSuffixOf v ||
      Keyword.all.any fun j => j.spelling.isSuffixOf v && cutsB n (v.take (v.length - j.spelling.length))

theorem Keyword.spelling_ne (k : Keyword) : k.spelling ≠ [] := by
  have : ∀ k ∈ Keyword.all, k.spelling ≠ [] := by decide +kernel
  exact this k k.mem_all

theorem Cuts.bool {v : Str} (h : Cuts v) : ∀ n, v.length ≤ n → cutsB n v = true := by
  induction h with
  | nil => intro n _; cases n <;> rfl
  | space v =>
    intro n hn
    cases n with
    | zero => simp at hn
    | succ n =>
      have : [' '].isSuffixOf (v ++ [' ']) = true := List.isSuffixOf_iff_suffix.2 (List.suffix_append _ _)
      simp [cutsB, this]
  | keyword v j _ ih =>
    intro n hn
    have hj : 0 < j.spelling.length := List.length_pos_iff.2 j.spelling_ne
    rw [List.length_append] at hn
    cases n with
    | zero => omega
    | succ n =>
      have h1 : j.spelling.isSuffixOf (v ++ j.spelling) = true :=
        List.isSuffixOf_iff_suffix.2 (List.suffix_append _ _)
      have h2 : cutsB n ((v ++ j.spelling).take ((v ++ j.spelling).length - j.spelling.length)) = true := by
        simpa using ih n (by omega)
      rw [cutsB, Bool.or_eq_true]
      right
      rw [List.any_eq_true]
      exact ⟨j, j.mem_all, by rw [h1, h2]; rfl⟩

theorem cuts_of_bool {n : Nat} {v : Str} (h : cutsB n v = true) : Cuts v := by
  induction n generalizing v with
  | zero =>
    cases v with
    | nil => exact .nil
    | cons => cases h
  | succ n ih =>
    rw [cutsB, Bool.or_eq_true, Bool.or_eq_true] at h
    rcases h with (h | h) | h
    · cases v with
      | nil => exact .nil
      | cons => cases h
    · obtain ⟨u, rfl⟩ := List.isSuffixOf_iff_suffix.1 h
      exact .space u
    · rw [List.any_eq_true] at h
      obtain ⟨j, -, h⟩ := h
      rw [Bool.and_eq_true] at h
      obtain ⟨u, rfl⟩ := List.isSuffixOf_iff_suffix.1 h.1
      refine .keyword u j (ih ?_)
      simpa using h.2

theorem joins_iff (lex : Str) : Joins lex ↔ lex ∈ joiners := by
  constructor
  · rintro ⟨k, v, b, h, hv⟩
    have h1 : (Keyword.all.all fun k => (List.range k.spelling.length).all fun n =>
        !cutsB n (k.spelling.take n) || (List.range k.spelling.length).all fun m =>
          !([' '].isPrefixOf ((k.spelling.drop n).drop m)) || decide ((k.spelling.drop n).take m ∈ joiners)) = true := by
      decide +kernel
    simp only [List.all_eq_true, List.mem_range, Bool.or_eq_true, Bool.not_eq_true', decide_eq_true_eq] at h1
    have h2 := h1 k k.mem_all v.length (by rw [h]; simp; omega)
    rw [h, List.take_left' rfl, hv.bool _ (Nat.le_refl _)] at h2
    have h3 := (h2.resolve_left (by simp)) lex.length (by simp; omega)
    simpa using h3
  · intro h
    have h1 : ∀ l ∈ joiners, (Keyword.all.any fun k => (List.range k.spelling.length).any fun n =>
        (l ++ [' ']).isPrefixOf (k.spelling.drop n) && cutsB n (k.spelling.take n)) = true := by decide +kernel
    have h2 := h1 lex h
    rw [List.any_eq_true] at h2
    obtain ⟨k, -, h2⟩ := h2
    rw [List.any_eq_true] at h2
    obtain ⟨n, -, h2⟩ := h2
    rw [Bool.and_eq_true] at h2
    obtain ⟨b, hb⟩ := List.isPrefixOf_iff_prefix.1 h2.1
    refine ⟨k, k.spelling.take n, b, ?_, cuts_of_bool h2.2⟩
    have := List.take_append_drop n k.spelling
    rw [← hb] at this
    simpa using this.symm

end Lol
