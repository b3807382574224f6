import Verif.Lexer.RenderSpec
import Verif.Lexer.Run
import Verif.Lexer.ScanLemmas

/-! # Lemmas for written tokens -/

namespace Lol

theorem prefix_of_not_mem {p a r : Str} {c : Char} (h : p <+: a ++ c :: r) (hc : c ∉ p) : p <+: a := by
  induction a generalizing p with
  | nil =>
    cases p with
    | nil => exact List.nil_prefix
    | cons d p =>
      obtain ⟨t, ht⟩ := h
      simp at ht
      exact absurd (by simp [ht.1]) hc
  | cons b a ih =>
    cases p with
    | nil => exact List.nil_prefix
    | cons d p =>
      rw [List.cons_append, List.cons_prefix_cons] at h
      rw [List.cons_prefix_cons]
      exact ⟨h.1, ih h.2 fun hm => hc (by simp [hm])⟩

theorem Keyword.tab_not_mem (k : Keyword) : '\t' ∉ k.spelling := by
  have : ∀ k ∈ Keyword.all, '\t' ∉ k.spelling := by decide +kernel
  exact this k k.mem_all

theorem Keyword.first_of_not_hidden {j k : Keyword} (hk : k ∉ hiddenKeywords) (hj : j.ctorIdx < k.ctorIdx) :
    ¬ j.spelling <+: k.spelling := by
  have : ∀ j ∈ Keyword.all, ∀ k ∈ Keyword.all, k ∉ hiddenKeywords → j.ctorIdx < k.ctorIdx →
      ¬ j.spelling <+: k.spelling := by decide +kernel
  exact this j j.mem_all k k.mem_all hk hj

theorem NumberLexeme.digit {lex rest : Str} {n : NumberToken} (h : NumberLexeme lex rest n) :
    ∃ d ∈ lex, IsDigit d := by
  cases h with
  | int sgn ds c rest hs hne hd =>
    cases ds with
    | nil => exact absurd rfl hne
    | cons d ds => exact ⟨d, by simp, hd d (by simp)⟩
  | float sgn ds es c rest x hs hne hd he =>
    cases ds with
    | cons d ds => exact ⟨d, by simp, hd d (by simp)⟩
    | nil =>
      cases es with
      | nil => exact absurd rfl hne
      | cons d es => exact ⟨d, by simp, he d (by simp)⟩

theorem NumberLexeme.tab_not_mem {lex rest : Str} {n : NumberToken} (h : NumberLexeme lex rest n) : '\t' ∉ lex := by
  have hsign : ∀ sgn, IsSign sgn → '\t' ∉ sgn := by rintro sgn (rfl | rfl | rfl) <;> decide
  have hdig : ¬ IsDigit '\t' := by decide
  cases h with
  | int sgn ds c rest hs hne hd =>
    intro hm
    rcases List.mem_append.1 hm with h | h
    · exact hsign _ hs h
    · exact hdig (hd _ h)
  | float sgn ds es c rest x hs hne hd he =>
    intro hm
    simp only [List.mem_append, List.mem_cons] at hm
    rcases hm with (h | h) | h | h
    · exact hsign _ hs h
    · exact hdig (hd _ h)
    · exact absurd h (by decide)
    · exact hdig (he _ h)

theorem Writes.lexeme {lex : Str} {ty : TokenType} (h : Writes lex ty) (rest : Str) :
    Lexeme lex ('\t' :: rest) ty := by
  cases h with
  | identifier _ h1 h2 h3 =>
    refine .identifier _ _ h1 h2 ?_ ?_
    · intro c r hr
      cases hr
      decide
    · exact fun k hk => h3 k (prefix_of_not_mem hk k.tab_not_mem)
  | keyword k hk =>
    refine .keyword k _ (fun j hj hp => Keyword.first_of_not_hidden hk hj (prefix_of_not_mem hp j.tab_not_mem))
      ?_ ?_ ?_ ?_ ?_ <;> rintro rfl <;> exact hk (by decide)
  | symbol c h1 h2 h3 h4 h5 h6 h7 =>
    refine .symbol c _ h1 h2 h3 h5 h6 h7 ?_ ?_ ?_
    · rintro ⟨t, ht⟩
      simp at ht
    · rintro ⟨t, ht⟩
      simp at ht
    · intro lex r n he hn
      obtain ⟨d, hd, hdig⟩ := hn.digit
      have hp : lex <+: [c] := prefix_of_not_mem (c := '\t') (r := rest) ⟨r, he.symm⟩ hn.tab_not_mem
      have : d ∈ [c] := hp.subset hd
      simp at this
      exact h4 (this ▸ hdig)
  | int sgn ds h1 h2 h3 h4 => exact .number _ _ _ (.int sgn ds '\t' rest h1 h2 h3 h4 (by decide) (by decide))
  | float sgn ds es x h1 h2 h3 h4 h5 => exact .number _ _ _ (.float sgn ds es '\t' rest x h1 h2 h3 h4 (by decide) h5)
  | string s h1 h2 =>
    refine .stringClosed s ('\t' :: rest) s '"' ('\t' :: rest) h1 rfl ?_ (by decide)
    exact utf8Len_ascii h2
  | win => exact .win _
  | fail => exact .fail _
  | noob => exact .noob _
  | obtw s h =>
    refine .obtw s _ fun u v he => ?_
    rcases Nat.lt_or_ge u.length s.length with hlt | hge
    · have hpre : u ++ chars!"TLDR" <+: s ++ chars!"TLDR" := by
        refine List.prefix_of_prefix_length_le (l₃ := s ++ (chars!"TLDR" ++ '\t' :: rest)) ⟨v, ?_⟩
          ⟨'\t' :: rest, by rw [List.append_assoc]⟩ (by simp; omega)
        rw [he, List.append_assoc]
      obtain ⟨w, hw⟩ := hpre
      exact h u w (by rw [← hw, List.append_assoc])
    · exact hge
  | slot => exact .slot _
  | ellipsis => exact .ellipsis _
  | comma => exact .comma _
  | bang => exact .bang _

/-! ## Lines -/

theorem scan_blanks {blanks : Str} (h : ∀ c ∈ blanks, c = ' ' ∨ c = '\t') (rest : Str) (p : Position) :
    ∃ q, Scan (blanks ++ rest) p [] rest q ∧ q.line = p.line := by
  induction blanks generalizing p with
  | nil => exact ⟨p, .refl _ _, rfl⟩
  | cons c blanks ih =>
    obtain ⟨q, h1, h2⟩ := ih (fun d hd => h d (by simp [hd])) (p.afterWs c)
    have hc := h c (by simp)
    refine ⟨q, .ws c _ _ _ _ _ ?_ h1, ?_⟩
    · rcases hc with rfl | rfl <;> decide
    · rw [h2, Position.afterWs, if_neg]
      rintro rfl
      revert hc
      decide

theorem WritesLine.scan {tys : List TokenType} {text : Str} (h : WritesLine tys text) (rest : Str) (p : Position) :
    ∃ ts q, Scan (text ++ rest) p ts rest q ∧ ts.map (·.tokenType) = tys ∧
      (∀ t ∈ ts, t.range.start.line = p.line) ∧ q.line = p.line + 1 := by
  induction h generalizing p with
  | nil => exact ⟨[], _, .ws '\n' _ _ _ _ _ (by decide) (.refl _ _), rfl, by simp, rfl⟩
  | comment s hs =>
    have hl : Lexeme (chars!"BTW" ++ s) ('\n' :: rest) (.commentSingleLine s) := .btw s _ hs (.inr ⟨_, rfl⟩)
    refine ⟨[⟨.commentSingleLine s, ⟨p, p.afterLexeme (chars!"BTW" ++ s)⟩⟩],
      (p.afterLexeme (chars!"BTW" ++ s)).afterWs '\n', ?_, rfl, by simp, rfl⟩
    · rw [List.append_assoc]
      exact .tok _ _ _ _ _ _ _ hl (.ws '\n' _ _ _ _ _ (by decide) (.refl _ _))
  | @cons lex ty blanks tys text h1 h2 h3 ih =>
    obtain ⟨q, g1, g2⟩ := scan_blanks h2 (text ++ rest) ((p.afterLexeme lex).afterWs '\t')
    obtain ⟨ts, r, i1, i2, i3, i4⟩ := ih q
    have hq : q.line = p.line := g2
    refine ⟨⟨ty, ⟨p, p.afterLexeme lex⟩⟩ :: ts, r, ?_, ?_, ?_, by rw [i4, hq]⟩
    · have : lex ++ '\t' :: (blanks ++ text) ++ rest = lex ++ '\t' :: (blanks ++ (text ++ rest)) := by simp
      rw [this]
      exact .tok _ _ _ _ _ _ _ (h1.lexeme _) (.ws _ _ _ _ _ _ (by decide) (g1.trans i1))
    · simp [i2]
    · intro t ht
      rcases List.mem_cons.1 ht with rfl | ht
      · rfl
      · rw [i3 t ht, hq]

theorem WritesLines.scan {lines : List (List TokenType)} {text : Str} (h : WritesLines lines text) (p : Position) :
    ∃ (tss : List (List Token)) (q : Position), Scan text p tss.flatten [] q ∧ tss.map (List.map (·.tokenType)) = lines ∧
      ∀ (i : Nat) (ts : List Token), tss[i]? = some ts → ∀ t ∈ ts, t.range.start.line = p.line + i := by
  induction h generalizing p with
  | nil => exact ⟨[], p, .refl _ _, rfl, by simp⟩
  | @cons tys text lines more h1 h2 ih =>
    obtain ⟨ts, q, g1, g2, g3, g4⟩ := h1.scan more p
    obtain ⟨tss, r, i1, i2, i3⟩ := ih q
    refine ⟨ts :: tss, r, g1.trans i1, by simp [g2, i2], ?_⟩
    intro i us hi t ht
    cases i with
    | zero =>
      simp at hi
      subst hi
      simpa using g3 t ht
    | succ i =>
      have := i3 i us (by simpa using hi) t ht
      rw [this, g4]
      omega

theorem WritesLines.tokenize {lines : List (List TokenType)} {text : Str} (h : WritesLines lines text) :
    ∃ tss : List (List Token), tokenize text = .ok (.ok tss.flatten) ∧ tss.map (List.map (·.tokenType)) = lines ∧
      ∀ (i : Nat) (ts : List Token), tss[i]? = some ts → ∀ t ∈ ts, t.range.start.line = 1 + i := by
  obtain ⟨tss, q, h1, h2, h3⟩ := h.scan .first
  refine ⟨tss, ?_, h2, h3⟩
  rw [tokenize_eq_run, run_scan h1, run_nil]
  simp [prepend]

/-! ## Existence -/

theorem exists_decimal (n : Nat) : ∃ ds : Str, ds ≠ [] ∧ (∀ d ∈ ds, IsDigit d) ∧ decVal ds = n := by
  induction n using Nat.strongRecOn with
  | ind n ih =>
    have hd : ∀ k, k < 10 → IsDigit (Char.ofNat (48 + k)) ∧ (Char.ofNat (48 + k)).toNat - 48 = k := by decide
    obtain ⟨h1, h2⟩ := hd (n % 10) (Nat.mod_lt _ (by omega))
    by_cases hn : n < 10
    · refine ⟨[Char.ofNat (48 + n % 10)], by simp, by simpa using h1, ?_⟩
      show 0 * 10 + ((Char.ofNat (48 + n % 10)).toNat - 48) = n
      omega
    · obtain ⟨ds, g1, g2, g3⟩ := ih (n / 10) (by omega)
      refine ⟨ds ++ [Char.ofNat (48 + n % 10)], by simp, ?_, ?_⟩
      · intro d hd
        rcases List.mem_append.1 hd with hd | hd
        · exact g2 d hd
        · simp at hd
          exact hd ▸ h1
      · rw [decVal, List.foldl_append]
        show (decVal ds) * 10 + ((Char.ofNat (48 + n % 10)).toNat - 48) = n
        omega

theorem decVal_zeros (n : Nat) (ds : Str) : decVal (List.replicate n '0' ++ ds) = decVal ds := by
  induction n with
  | zero => rfl
  | succ n ih => exact ih

/-- Every `f32` but NaN has a literal. -/
theorem exists_float {b : Nat} (hb : b ≤ infBits) : ∃ ds es : Str, ds ++ es ≠ [] ∧ (∀ d ∈ ds, IsDigit d) ∧
    (∀ d ∈ es, IsDigit d) ∧ Nearest (decVal (ds ++ es)) (10 ^ es.length) b := by
  rcases Nat.lt_or_eq_of_le hb with hb | rfl
  · obtain ⟨ds, -, h2, h3⟩ := exists_decimal (f32Units b * 5 ^ 149)
    have hall : ∀ d ∈ List.replicate 149 '0' ++ ds, IsDigit d := by
      intro d hd
      rcases List.mem_append.1 hd with hd | hd
      · rw [List.eq_of_mem_replicate hd]
        decide
      · exact h2 d hd
    have hlen : (List.replicate 149 '0' ++ ds).length = 149 + ds.length := by
      rw [List.length_append, List.length_replicate]
    have hv := decVal_zeros 149 ds
    generalize List.replicate 149 '0' ++ ds = all at *
    refine ⟨all.take ds.length, all.drop ds.length, ?_, fun d hd => hall d (List.mem_of_mem_take hd),
      fun d hd => hall d (List.mem_of_mem_drop hd), ?_⟩
    · rw [List.take_append_drop]
      intro h
      rw [h] at hlen
      simp at hlen
      omega
    · have hes : (all.drop ds.length).length = 149 := by
        rw [List.length_drop, hlen]
        omega
      rw [List.take_append_drop, hes, hv, h3]
      refine nearest_exact (Nat.pow_pos (by omega)) hb ?_
      rw [Nat.mul_assoc, ← Nat.mul_pow]
  · refine ⟨'1' :: List.replicate 39 '0', [], by simp, ?_, by simp, ?_⟩
    · decide
    · unfold Nearest
      rw [if_pos (by decide +kernel)]

theorem exists_writes {ty : TokenType} (h : Writable ty) : ∃ lex, Writes lex ty := by
  match ty, h with
  | .identifier name, h => exact ⟨_, .identifier name h.1 h.2.1 h.2.2⟩
  | .keyword k, h => exact ⟨_, .keyword k h⟩
  | .symbol s, h =>
    obtain ⟨c, rfl, h1, h2, h3, h4, h5, h6, h7⟩ := h
    exact ⟨_, .symbol c h1 h2 h3 h4 h5 h6 h7⟩
  | .value (.number (.int n)), h =>
    obtain ⟨ds, h1, h2, h3⟩ := exists_decimal n.natAbs
    by_cases hn : n < 0
    · have hv : signedVal ['-'] ds = n := by
        rw [signedVal, if_pos rfl, h3]
        omega
      have := Writes.int ['-'] ds (.inr (.inr rfl)) h1 h2 (hv.symm ▸ h)
      rw [hv] at this
      exact ⟨_, this⟩
    · have hv : signedVal [] ds = n := by
        rw [signedVal, if_neg (by simp), h3]
        omega
      have := Writes.int [] ds (.inl rfl) h1 h2 (hv.symm ▸ h)
      rw [hv] at this
      exact ⟨_, this⟩
  | .value (.number (.float ⟨neg, bits⟩)), h =>
    obtain ⟨ds, es, h2, h3, h4, h5⟩ := exists_float h
    cases neg with
    | false => exact ⟨_, .float [] ds es _ (.inl rfl) h2 h3 h4 ⟨by simp, h5⟩⟩
    | true => exact ⟨_, .float ['-'] ds es _ (.inr (.inr rfl)) h2 h3 h4 ⟨by simp, h5⟩⟩
  | .value (.string s), h => exact ⟨_, .string s h.1 h.2⟩
  | .value (.boolean true), _ => exact ⟨_, .win⟩
  | .value (.boolean false), _ => exact ⟨_, .fail⟩
  | .value .noob, _ => exact ⟨_, .noob⟩
  | .commentMultiLine s, h => exact ⟨_, .obtw s h⟩
  | .bukkitSlotAccess, _ => exact ⟨_, .slot⟩
  | .ellipsis, _ => exact ⟨_, .ellipsis⟩
  | .comma, _ => exact ⟨_, .comma⟩
  | .exclamationMark, _ => exact ⟨_, .bang⟩

theorem writable_of_writes {lex : Str} {ty : TokenType} (h : Writes lex ty) : Writable ty := by
  cases h with
  | identifier _ h1 h2 h3 => exact ⟨h1, h2, h3⟩
  | keyword k h => exact h
  | symbol c h1 h2 h3 h4 h5 h6 h7 => exact ⟨c, rfl, h1, h2, h3, h4, h5, h6, h7⟩
  | int sgn ds h1 h2 h3 h4 => exact h4
  | float sgn ds es x h1 h2 h3 h4 h5 => exact h5.2.le
  | string s h1 h2 => exact ⟨h1, h2⟩
  | obtw s h => exact h
  | _ => trivial

theorem exists_writesLine : ∀ {tys : List TokenType}, WritableLine tys → ∃ text, WritesLine tys text
  | [], _ => ⟨_, .nil⟩
  | ty :: tys, h => by
    by_cases hc : ∃ s, ty = .commentSingleLine s
    · obtain ⟨s, rfl⟩ := hc
      cases tys with
      | nil => exact ⟨_, .comment s h⟩
      | cons ty tys => exact absurd h.1 id
    · have h' : Writable ty ∧ WritableLine tys := by
        unfold WritableLine at h
        split at h
        · next he => cases he
        · next he => cases he; exact absurd ⟨_, rfl⟩ hc
        · next he => cases he; exact h
      obtain ⟨lex, h1⟩ := exists_writes h'.1
      obtain ⟨text, h2⟩ := exists_writesLine h'.2
      exact ⟨_, .cons (blanks := []) h1 (by simp) h2⟩

theorem exists_writesLines {lines : List (List TokenType)} (h : ∀ tys ∈ lines, WritableLine tys) :
    ∃ text, WritesLines lines text := by
  induction lines with
  | nil => exact ⟨_, .nil⟩
  | cons tys lines ih =>
    obtain ⟨text, h1⟩ := exists_writesLine (h tys (by simp))
    obtain ⟨more, h2⟩ := ih fun l hl => h l (by simp [hl])
    exact ⟨_, .cons h1 h2⟩

end Lol
