import Verif.Lexer.FloatLemmas
import Verif.Lexer.Lemmas

/-! # Helper lemmas: `parse_number` -/

namespace Lol

theorem IsDigit.not_sign {c : Char} (h : IsDigit c) : c ≠ '-' ∧ c ≠ '+' ∧ c ≠ '.' := by
  refine ⟨?_, ?_, ?_⟩ <;> rintro rfl <;> revert h <;> decide

theorem IsDigit.ascii {c : Char} (h : IsDigit c) : IsAscii c := by
  obtain ⟨_, h2⟩ := h
  unfold IsAscii
  have : c.toNat ≤ '9'.toNat := h2
  have : '9'.toNat = 57 := rfl
  omega

theorem numScan_digits (i : Nat) (dot : Bool) (ds rest : Str) (h : ∀ d ∈ ds, IsDigit d) :
    numScan i dot (ds ++ rest) = numScan (i + ds.length) dot rest := by
  induction ds generalizing i with
  | nil => simp
  | cons d ds ih =>
    have hd : IsDigit d := h d (by simp)
    have hs := hd.not_sign
    have hd' : '0' ≤ d ∧ d ≤ '9' := hd
    rw [List.cons_append, numScan, if_neg (by simp [hs.1, hs.2.1]), if_pos hd',
      ih (i + 1) (fun e he => h e (by simp [he]))]
    congr 1
    simp; omega

/-- The longest digit prefix. -/
theorem exists_digits (s : Str) : ∃ ds tail, s = ds ++ tail ∧ (∀ d ∈ ds, IsDigit d) ∧
    ∀ c r, tail = c :: r → ¬ IsDigit c := by
  induction s with
  | nil => exact ⟨[], [], by simp⟩
  | cons c s ih =>
    by_cases hc : IsDigit c
    · obtain ⟨ds, tail, h1, h2, h3⟩ := ih
      refine ⟨c :: ds, tail, by simp [h1], ?_, h3⟩
      intro d hd
      rcases List.mem_cons.1 hd with rfl | hd
      · exact hc
      · exact h2 d hd
    · refine ⟨[], c :: s, by simp, by simp, ?_⟩
      intro d r h
      simp at h
      rw [← h.1]; exact hc

theorem exists_sign (s : Str) : ∃ sgn tail, s = sgn ++ tail ∧ IsSign sgn ∧
    (sgn = [] → ∀ c r, tail = c :: r → c ≠ '-' ∧ c ≠ '+') := by
  cases s with
  | nil => exact ⟨[], [], by simp, .inl rfl, by simp⟩
  | cons c s =>
    by_cases h1 : c = '-'
    · exact ⟨['-'], s, by simp [h1], .inr (.inr rfl), by simp⟩
    · by_cases h2 : c = '+'
      · exact ⟨['+'], s, by simp [h2], .inr (.inl rfl), by simp⟩
      · refine ⟨[], c :: s, by simp, .inl rfl, ?_⟩
        intro _ d r h
        simp at h
        exact ⟨h.1 ▸ h1, h.1 ▸ h2⟩

theorem numScan_sign (sgn s : Str) (h : IsSign sgn) :
    numScan 0 false (sgn ++ s) = numScan sgn.length false s := by
  rcases h with rfl | rfl | rfl <;> simp [numScan]

theorem sign_ascii {sgn : Str} (h : IsSign sgn) : ∀ c ∈ sgn, IsAscii c := by
  rcases h with rfl | rfl | rfl <;> simp [IsAscii] <;> decide

theorem digitsVal_eq (ds : Str) (acc : Nat) (h : ∀ d ∈ ds, IsDigit d) :
    digitsVal acc ds = some (ds.foldl (fun n c => n * 10 + (c.toNat - '0'.toNat)) acc) := by
  induction ds generalizing acc with
  | nil => rfl
  | cons d ds ih =>
    have hd' : '0' ≤ d ∧ d ≤ '9' := h d (by simp)
    rw [digitsVal, if_pos hd', ih _ (fun e he => h e (by simp [he]))]
    rfl

theorem parseI32_eq (sgn ds : Str) (hs : IsSign sgn) (h : ∀ d ∈ ds, IsDigit d) :
    parseI32 (sgn ++ ds) =
      if ds ≠ [] ∧ InI32 (signedVal sgn ds) then some (signedVal sgn ds) else none := by
  have hv : digitsVal 0 ds = some (decVal ds) := digitsVal_eq ds 0 h
  rcases hs with rfl | rfl | rfl
  · cases ds with
    | nil => simp [parseI32]
    | cons d ds =>
      have hd := (h d (by simp)).not_sign
      simp only [List.nil_append, parseI32, hd.1, hd.2.1, if_false, signedVal, InI32, hv]
      by_cases h1 : (decVal (d :: ds) : Int) ≤ 2147483647
      · have : (-2147483648 : Int) ≤ (decVal (d :: ds) : Int) := by omega
        simp [h1, this]
      · simp [h1]
  · have e : ¬ ('+' = '-') := by decide
    by_cases h0 : ds = []
    · subst h0; simp [parseI32]
    · simp only [List.cons_append, List.nil_append, parseI32, signedVal, InI32, hv, h0, if_false,
        if_true, ne_eq, not_false_eq_true, true_and]
      by_cases h1 : (decVal ds : Int) ≤ 2147483647
      · have : (-2147483648 : Int) ≤ (decVal ds : Int) := by omega
        simp [h1, this]
      · simp [h1]
  · by_cases h0 : ds = []
    · subst h0; simp [parseI32]
    · simp only [List.cons_append, List.nil_append, parseI32, signedVal, InI32, hv, h0, if_false,
        if_true, ne_eq, not_false_eq_true, true_and]
      by_cases h1 : (decVal ds : Int) ≤ 2147483648
      · have h2 : -2147483648 ≤ -(decVal ds : Int) ∧ -(decVal ds : Int) ≤ 2147483647 := by omega
        rw [if_pos h1, if_pos h2]
      · have h2 : ¬ (-2147483648 ≤ -(decVal ds : Int) ∧ -(decVal ds : Int) ≤ 2147483647) := by omega
        rw [if_neg h1, if_neg h2]

theorem takeWhile_digits {ds : Str} (h : ∀ d ∈ ds, IsDigit d) (es : Str) :
    (ds ++ '.' :: es).takeWhile (fun c => decide ('0' ≤ c ∧ c ≤ '9')) = ds ∧
      (ds ++ '.' :: es).dropWhile (fun c => decide ('0' ≤ c ∧ c ≤ '9')) = '.' :: es := by
  induction ds with
  | nil => exact ⟨rfl, rfl⟩
  | cons d ds ih =>
    have hd : '0' ≤ d ∧ d ≤ '9' := h d (by simp)
    obtain ⟨h1, h2⟩ := ih fun x hx => h x (by simp [hx])
    rw [List.cons_append, List.takeWhile_cons, List.dropWhile_cons, if_pos (decide_eq_true hd), if_pos (decide_eq_true hd), h1, h2]
    exact ⟨rfl, rfl⟩

theorem parseDecimal_eq (neg : Bool) {ds es : Str} (h : ∀ d ∈ ds, IsDigit d) (h' : ∀ d ∈ es, IsDigit d) :
    parseDecimal neg (ds ++ '.' :: es) =
      if ds ++ es ≠ [] then some ⟨neg, nearestBits (decVal (ds ++ es)) (10 ^ es.length)⟩ else none := by
  have hv : digitsVal 0 (ds ++ es) = some (decVal (ds ++ es)) := digitsVal_eq _ 0 fun d hd => by
    rcases List.mem_append.1 hd with hd | hd
    · exact h d hd
    · exact h' d hd
  obtain ⟨h1, h2⟩ := takeWhile_digits h es
  unfold parseDecimal
  simp only [h1, h2, hv]
  by_cases hn : ds ++ es = []
  · rw [if_pos hn, if_neg (fun h => h hn)]
  · rw [if_neg hn, if_pos hn]

/-- The value of a literal. -/
def literalF32 (sgn ds es : Str) : F32 := ⟨decide (sgn = ['-']), nearestBits (decVal (ds ++ es)) (10 ^ es.length)⟩

theorem floatVal_iff {sgn ds es : Str} {x : F32} : FloatVal sgn ds es x ↔ x = literalF32 sgn ds es := by
  obtain ⟨neg, bits⟩ := x
  unfold FloatVal literalF32
  rw [nearest_iff (Nat.pow_pos (by omega)), F32.mk.injEq]
  refine and_congr_left fun _ => ?_
  by_cases h : sgn = ['-'] <;> simp [h]

theorem parseF32_eq {sgn ds es : Str} (hs : IsSign sgn) (h : ∀ d ∈ ds, IsDigit d) (h' : ∀ d ∈ es, IsDigit d) :
    parseF32 (sgn ++ ds ++ '.' :: es) = if ds ++ es ≠ [] then some (literalF32 sgn ds es) else none := by
  have hp := fun neg => parseDecimal_eq neg h h'
  rcases hs with rfl | rfl | rfl
  · rw [List.nil_append, literalF32, show decide (([] : Str) = ['-']) = false from rfl, ← hp false]
    cases ds with
    | nil => rfl
    | cons d ds =>
      have hd : '0' ≤ d ∧ d ≤ '9' := h d (by simp)
      have h1 : d ≠ '-' := by rintro rfl; exact absurd hd (by decide)
      have h2 : d ≠ '+' := by rintro rfl; exact absurd hd (by decide)
      simp [parseF32, h1, h2]
  · rw [literalF32, show decide ((['+'] : Str) = ['-']) = false from rfl, ← hp false]
    rfl
  · rw [literalF32, show decide ((['-'] : Str) = ['-']) = true from rfl, ← hp true]
    rfl

/-- The result of `parse_number` in terms of the shape of the code. -/
theorem parseNumber_int {sgn ds : Str} {c : Char} {r : Str} (hs : IsSign sgn)
    (hds : ∀ d ∈ ds, IsDigit d) (hc : ¬ IsDigit c) (hdot : c ≠ '.')
    (hg : sgn = [] → ds = [] → c ≠ '-' ∧ c ≠ '+') :
    parseNumber (sgn ++ ds ++ c :: r) =
      if ds ≠ [] ∧ InI32 (signedVal sgn ds) then .ok (some (sgn ++ ds, .int (signedVal sgn ds)))
      else .ok none := by
  have hscan : numScan 0 false (sgn ++ ds ++ c :: r) = some (sgn.length + ds.length, false) := by
    rw [List.append_assoc, numScan_sign _ _ hs, numScan_digits _ _ _ _ hds, numScan]
    have hc' : ¬ ('0' ≤ c ∧ c ≤ '9') := hc
    rw [if_neg, if_neg hc', if_neg]
    · simp [hdot]
    · rintro ⟨h0, h1⟩
      have h2 : sgn = [] := by
        cases sgn with
        | nil => rfl
        | cons _ _ => simp at h0
      have h3 : ds = [] := by
        cases ds with
        | nil => rfl
        | cons _ _ => simp at h0
      have := hg h2 h3
      rcases h1 with h1 | h1
      · exact this.1 h1
      · exact this.2 h1
  have hlen : utf8Len (sgn ++ ds) = sgn.length + ds.length := by
    rw [utf8Len_ascii, List.length_append]
    intro d hd
    rcases List.mem_append.1 hd with hd | hd
    · exact sign_ascii hs d hd
    · exact (hds d hd).ascii
  have hsl : sliceTo (sgn ++ ds ++ c :: r) (sgn.length + ds.length) = .ok (sgn ++ ds) :=
    sliceTo_of rfl hlen
  unfold parseNumber
  rw [hscan]
  simp only [hsl, parseI32_eq sgn ds hs hds]
  rw [if_neg (by simp)]
  by_cases hh : ds ≠ [] ∧ InI32 (signedVal sgn ds)
  · rw [if_pos hh, if_pos hh]
  · rw [if_neg hh, if_neg hh]

theorem parseNumber_float {sgn ds es : Str} {c : Char} {r : Str} (hs : IsSign sgn)
    (hds : ∀ d ∈ ds, IsDigit d) (hes : ∀ d ∈ es, IsDigit d) (hc : ¬ IsDigit c) :
    parseNumber (sgn ++ ds ++ '.' :: es ++ c :: r) =
      if ds ++ es ≠ [] then .ok (some (sgn ++ ds ++ '.' :: es, .float (literalF32 sgn ds es)))
      else .ok none := by
  have hscan : numScan 0 false (sgn ++ ds ++ '.' :: es ++ c :: r) =
      some (sgn.length + ds.length + 1 + es.length, true) := by
    rw [List.append_assoc, List.append_assoc, numScan_sign _ _ hs, numScan_digits _ _ _ _ hds,
      List.cons_append, numScan]
    have hc' : ¬ ('0' ≤ c ∧ c ≤ '9') := hc
    have e : ¬ ('0' ≤ '.' ∧ '.' ≤ '9') := by decide
    rw [if_neg (by rintro ⟨_, h | h⟩ <;> exact absurd h (by decide)), if_neg e, if_pos ⟨rfl, rfl⟩, numScan_digits _ _ _ _ hes, numScan,
      if_neg (by omega), if_neg hc', if_neg (by simp)]
  have hlen : utf8Len (sgn ++ ds ++ '.' :: es) = sgn.length + ds.length + 1 + es.length := by
    rw [utf8Len_ascii]
    · simp; omega
    intro d hd
    simp only [List.mem_append, List.mem_cons] at hd
    rcases hd with (hd | hd) | hd | hd
    · exact sign_ascii hs d hd
    · exact (hds d hd).ascii
    · rw [hd]; decide
    · exact (hes d hd).ascii
  have hsl : sliceTo (sgn ++ ds ++ '.' :: es ++ c :: r) (sgn.length + ds.length + 1 + es.length) =
      .ok (sgn ++ ds ++ '.' :: es) := sliceTo_of rfl hlen
  have hf := parseF32_eq hs hds hes
  unfold parseNumber
  rw [hscan]
  simp only [hsl, if_true, hf]
  by_cases h : ds ++ es = []
  · rw [if_neg (fun h' => h' h), if_neg (fun h' => h' h)]
  · rw [if_pos h, if_pos h]

/-- A number needs a following character. -/
theorem parseNumber_eof {sgn ds : Str} (hs : IsSign sgn) (hds : ∀ d ∈ ds, IsDigit d) :
    parseNumber (sgn ++ ds) = .ok none := by
  have : numScan 0 false (sgn ++ ds) = none := by
    rw [numScan_sign _ _ hs]
    have := numScan_digits sgn.length false ds [] hds
    rw [List.append_nil] at this
    rw [this, numScan]
  unfold parseNumber; rw [this]

theorem parseNumber_eof_float {sgn ds es : Str} (hs : IsSign sgn) (hds : ∀ d ∈ ds, IsDigit d)
    (hes : ∀ d ∈ es, IsDigit d) : parseNumber (sgn ++ ds ++ '.' :: es) = .ok none := by
  have : numScan 0 false (sgn ++ ds ++ '.' :: es) = none := by
    rw [List.append_assoc, numScan_sign _ _ hs, numScan_digits _ _ _ _ hds, numScan]
    have e : ¬ ('0' ≤ '.' ∧ '.' ≤ '9') := by decide
    rw [if_neg (by rintro ⟨_, h | h⟩ <;> exact absurd h (by decide)), if_neg e, if_pos ⟨rfl, rfl⟩]
    have := numScan_digits (sgn.length + ds.length + 1) true es [] hes
    rw [List.append_nil] at this
    rw [this, numScan]
  unfold parseNumber; rw [this]

theorem parseNumber_complete {lex rest : Str} {n : NumberToken} (h : NumberLexeme lex rest n) :
    parseNumber (lex ++ rest) = .ok (some (lex, n)) := by
  cases h with
  | int sgn ds c rest hs hne hds hr hc hdot =>
    rw [parseNumber_int hs hds hc hdot (fun _ h => absurd h hne), if_pos ⟨hne, hr⟩]
  | float sgn ds es c rest x hs hne hds hes hc hx =>
    rw [parseNumber_float hs hds hes hc, if_pos hne, floatVal_iff.1 hx]

theorem parseNumber_sound (code : Str) :
    (∃ lex rest n, code = lex ++ rest ∧ NumberLexeme lex rest n ∧
      parseNumber code = .ok (some (lex, n))) ∨ parseNumber code = .ok none := by
  obtain ⟨sgn, s, rfl, hs, hg⟩ := exists_sign code
  obtain ⟨ds, tail, rfl, hds, ht⟩ := exists_digits s
  cases tail with
  | nil => right; rw [List.append_nil]; exact parseNumber_eof hs hds
  | cons c r =>
    have hc : ¬ IsDigit c := ht c r rfl
    by_cases hdot : c = '.'
    · subst hdot
      obtain ⟨es, tail, rfl, hes, ht⟩ := exists_digits r
      cases tail with
      | nil =>
        right; rw [List.append_nil, ← List.append_assoc]; exact parseNumber_eof_float hs hds hes
      | cons c r =>
        have hc : ¬ IsDigit c := ht c r rfl
        have he : sgn ++ (ds ++ '.' :: (es ++ c :: r)) = sgn ++ ds ++ '.' :: es ++ c :: r := by simp
        rw [he, parseNumber_float hs hds hes hc]
        split
        · rename_i h
          exact .inl ⟨_, _, _, rfl, .float sgn ds es c r _ hs h hds hes hc (floatVal_iff.2 rfl), rfl⟩
        · exact .inr rfl
    · have he : sgn ++ (ds ++ c :: r) = sgn ++ ds ++ c :: r := by simp
      rw [he, parseNumber_int hs hds hc hdot]
      · split
        · rename_i h
          exact .inl ⟨_, _, _, rfl, .int sgn ds c r hs h.1 hds h.2 hc hdot, rfl⟩
        · exact .inr rfl
      · intro h1 h2
        exact hg h1 c r (by simp [h2])

/-- `parse_number` finds exactly the number lexemes and never panics. -/
theorem parseNumber_cases (code : Str) :
    (∃ lex rest n, code = lex ++ rest ∧ NumberLexeme lex rest n ∧
      parseNumber code = .ok (some (lex, n))) ∨
    ((∀ lex r n, code = lex ++ r → ¬ NumberLexeme lex r n) ∧ parseNumber code = .ok none) := by
  rcases parseNumber_sound code with h | h
  · exact .inl h
  · refine .inr ⟨?_, h⟩
    rintro lex r n rfl hn
    rw [parseNumber_complete hn] at h
    simp at h

end Lol
