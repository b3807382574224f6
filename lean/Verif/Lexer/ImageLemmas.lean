import Verif.Lexer.ImageSpec
import Verif.Lexer.RenderLemmas
import Verif.Lexer.LayoutLemmas

/-! # Lemmas: the lists of token types that come from source texts -/

namespace Lol

/-- The first token of a scan is the lexeme at the start. -/
theorem Scan.first_token {lex rest : Str} {ty : TokenType} {p q : Position} {ts : List Token} (hl : Lexeme lex rest ty)
    (h : Scan (lex ++ rest) p ts [] q) : ∃ t ts', ts = t :: ts' ∧ t.tokenType = ty ∧
      Scan rest (p.afterLexeme lex) ts' [] q := by
  generalize hc : lex ++ rest = code at h
  cases h with
  | refl => exact absurd (List.append_eq_nil_iff.1 hc).1 hl.ne_nil
  | ws c code p ts _ _ hws hs =>
    obtain ⟨d, r, rfl, hd⟩ := hl.head_not_ws
    simp only [List.cons_append, List.cons.injEq] at hc
    exact absurd (hc.1 ▸ hws) hd
  | tok lex' rest' ty' p ts _ _ hl' hs =>
    obtain ⟨rfl, rfl, rfl⟩ := hl.unique hl' hc
    exact ⟨_, _, rfl, rfl, hs⟩

theorem not_number_iff {code : Str} (h : parseNumber code = .ok none) :
    ∀ lex r n, code = lex ++ r → ¬ NumberLexeme lex r n := by
  intro lex r n he hn
  rw [he, parseNumber_complete hn] at h
  simp at h

theorem digit_symbol {c : Char} {rest : Str} (hc : IsDigit c) (h : parseNumber (c :: rest) = .ok none) :
    Lexeme [c] rest (.symbol [c]) := by
  obtain ⟨f1, f2, f3, f4, f5, f6, f7⟩ := numHead_facts (c := c) (.inl hc)
  exact .symbol c rest hc.ascii f1 f2 f3 f4 f7 (not_prefix_head (Ne.symm f5))
    (not_prefix_head (Ne.symm hc.not_sign.2.2)) (not_number_iff h)

/-! ## Numbers at the end -/

theorem scan_digits_end {ds : Str} (hd : ∀ d ∈ ds, IsDigit d) (p : Position) :
    ∃ ts q, Scan ds p ts [] q ∧ ts.map (·.tokenType) = symbols ds := by
  induction ds generalizing p with
  | nil => exact ⟨[], p, .refl _ _, rfl⟩
  | cons c r ih =>
    obtain ⟨ts, q, h1, h2⟩ := ih (fun d h => hd d (by simp [h])) (p.afterLexeme [c])
    have hl := digit_symbol (rest := r) (hd c (by simp)) (parseNumber_eof (sgn := []) (.inl rfl) hd)
    refine ⟨_, q, .tok [c] r _ p ts _ _ hl h1, ?_⟩
    simp [h2, symbols]

theorem dot_symbol {es : Str} (he : ∀ d ∈ es, IsDigit d) : Lexeme ['.'] es (.symbol ['.']) := by
  obtain ⟨f1, f2, f3, f4, f5, f6, f7⟩ := numHead_facts (c := '.') (.inr (.inr (.inr rfl)))
  refine .symbol '.' es (by decide) f1 f2 f3 f4 f7 (not_prefix_head (Ne.symm f5)) ?_
    (not_number_iff (parseNumber_eof_float (sgn := []) (ds := []) (.inl rfl) (by simp) he))
  rintro ⟨t, ht⟩
  simp only [List.cons_append, List.cons.injEq, true_and] at ht
  cases es with
  | nil => simp at ht
  | cons e es => exact absurd (List.cons.inj ht).1.symm (he e (by simp)).not_sign.2.2

theorem scan_float_end {ds es : Str} (hd : ∀ d ∈ ds, IsDigit d) (he : ∀ d ∈ es, IsDigit d) (p : Position) :
    ∃ ts q, Scan (ds ++ '.' :: es) p ts [] q ∧ ts.map (·.tokenType) = symbols (ds ++ '.' :: es) := by
  induction ds generalizing p with
  | nil =>
    obtain ⟨ts, q, h1, h2⟩ := scan_digits_end he (p.afterLexeme ['.'])
    refine ⟨_, q, .tok ['.'] es _ p ts _ _ (dot_symbol he) h1, ?_⟩
    simp [h2, symbols]
  | cons c r ih =>
    obtain ⟨ts, q, h1, h2⟩ := ih (fun d h => hd d (by simp [h])) (p.afterLexeme [c])
    have hl := digit_symbol (rest := r ++ '.' :: es) (hd c (by simp))
      (parseNumber_eof_float (sgn := []) (ds := c :: r) (.inl rfl) hd he)
    refine ⟨_, q, .tok [c] _ _ p ts _ _ hl h1, ?_⟩
    simp [h2, symbols]

theorem Scan.det {code : Str} {p q q' : Position} {ts ts' : List Token} (h : Scan code p ts [] q)
    (h' : Scan code p ts' [] q') : ts = ts' := by
  have e1 := run_scan h
  have e2 := run_scan h'
  rw [e1, run_nil, run_nil] at e2
  simpa [prepend] using e2

/-! ## Large integers -/

theorem decVal_cons (d : Char) (ds : Str) : decVal (d :: ds) = (d.toNat - '0'.toNat) * 10 ^ ds.length + decVal ds := by
  have h : ∀ (ds : Str) (a : Nat), ds.foldl (fun n c => n * 10 + (c.toNat - '0'.toNat)) a =
      a * 10 ^ ds.length + decVal ds := by
    intro ds
    induction ds with
    | nil => intro a; simp [decVal]
    | cons e ds ih =>
      intro a
      have e1 := ih (a * 10 + (e.toNat - '0'.toNat))
      have e2 := ih (0 * 10 + (e.toNat - '0'.toNat))
      simp only [decVal, List.foldl_cons] at e1 e2 ⊢
      rw [e1, e2, List.length_cons, Nat.pow_succ]
      simp only [Nat.add_mul, Nat.mul_assoc, Nat.mul_comm 10, Nat.zero_mul]
      omega
  have := h ds (0 * 10 + (d.toNat - '0'.toNat))
  simpa [decVal] using this

theorem scan_large {ds : Str} {c : Char} {r : Str} (hds : ∀ d ∈ ds, IsDigit d) (hne : ds ≠ []) (hc : ¬ IsDigit c)
    (hdot : c ≠ '.') {p q : Position} {ts : List Token} (h : Scan (ds ++ c :: r) p ts [] q) :
    ∃ (us : Str) (n : Int) (p' : Position) (ts' : List Token), ts.map (·.tokenType) = symbols us ++ .value (.number (.int n)) ::
        ts'.map (·.tokenType) ∧ Scan (c :: r) p' ts' [] q ∧ 0 ≤ n ∧ InI32 n ∧ (∀ d ∈ us, IsDigit d) ∧
        (us = [] ∨ ∃ vs d, us = vs ++ [d] ∧ d ≠ '0') ∧ (us = [] ↔ InI32 (decVal ds)) := by
  induction ds generalizing p ts with
  | nil => exact absurd rfl hne
  | cons d ds ih =>
    have hp := parseNumber_int (sgn := []) (ds := d :: ds) (c := c) (r := r) (.inl rfl) hds hc hdot
      (fun _ h => absurd h (by simp))
    have hsv : signedVal [] (d :: ds) = decVal (d :: ds) := by simp [signedVal]
    by_cases hin : InI32 (decVal (d :: ds))
    · have hl : Lexeme (d :: ds) (c :: r) (.value (.number (.int (decVal (d :: ds))))) := by
        have := NumberLexeme.int [] (d :: ds) c r (.inl rfl) (by simp) hds (hsv ▸ hin) hc hdot
        rw [hsv] at this
        exact .number _ _ _ this
      obtain ⟨t, ts', rfl, h1, h2⟩ := Scan.first_token hl h
      exact ⟨[], _, _, ts', by simp [h1, symbols], h2, by omega, hin, by simp, .inl rfl, by simp [hin]⟩
    · have hd := hds d (by simp)
      have hnone : parseNumber (d :: (ds ++ c :: r)) = .ok none := by
        simp only [List.nil_append, List.cons_append] at hp
        rw [hp, if_neg (fun h => hin (hsv ▸ h.2))]
      obtain ⟨t, ts', rfl, h1, h2⟩ := Scan.first_token (digit_symbol hd hnone) h
      have hne' : ds ≠ [] := by
        rintro rfl
        apply hin
        have hd9 : d.toNat ≤ 57 := hd.2
        simp only [InI32, decVal, List.foldl_cons, List.foldl_nil]
        have : '0'.toNat = 48 := rfl
        omega
      obtain ⟨us, n, p', ts'', g1, g2, g3, g4, g5, g6, g7⟩ := ih (fun e he => hds e (by simp [he])) hne' h2
      refine ⟨d :: us, n, p', ts'', by simp [h1, g1, symbols], g2, g3, g4, ?_, .inr ?_, by simp [hin]⟩
      · intro e he
        rcases List.mem_cons.1 he with rfl | he
        · exact hd
        · exact g5 e he
      · rcases g6 with rfl | ⟨vs, e, rfl, he⟩
        · refine ⟨[], d, rfl, ?_⟩
          rintro rfl
          apply hin
          rw [decVal_cons]
          have := g7.1 rfl
          simpa using this
        · exact ⟨d :: vs, e, rfl, he⟩

/-! ## All texts -/

theorem digits_of_large {us : Str} {n : Int} {tys : List TokenType} (h1 : ∀ d ∈ us, IsDigit d)
    (h2 : us = [] ∨ ∃ vs d, us = vs ++ [d] ∧ d ≠ '0') (h3 : 0 ≤ n) (h4 : InI32 n) (h5 : Emits tys) :
    Emits (symbols us ++ .value (.number (.int n)) :: tys) := by
  rcases h2 with rfl | ⟨vs, d, rfl, hd⟩
  · exact .cons h4 h5
  · exact .large (fun c hc => h1 c (by simp [hc])) (h1 d (by simp)) hd h3 h4 h5

theorem scan_emits (N : Nat) : ∀ {code : Str} {p q : Position} {ts : List Token}, code.length ≤ N → Scan code p ts [] q →
    (∀ t ∈ ts, ∀ s, t.tokenType = .value (.string s) → ∀ c ∈ s, IsAscii c) → Emits (ts.map (·.tokenType)) := by
  induction N with
  | zero =>
    intro code p q ts hN h hs
    cases code with
    | nil =>
      rw [h.det (.refl [] p)]
      exact .nil
    | cons => simp at hN
  | succ N ih =>
    intro code p q ts hN h hs
    have h0 := h
    cases h with
    | refl => exact .nil
    | ws c code p ts _ _ hws h => exact ih (by simp at hN; omega) h hs
    | tok lex rest ty p ts _ _ hl h =>
      have hne := hl.ne_nil
      have hlen : rest.length ≤ N := by
        have : 0 < lex.length := List.length_pos_iff.2 hne
        simp at hN
        omega
      have hrec := ih hlen h (fun t ht => hs t (by simp [ht]))
      simp only [List.map_cons]
      cases hl with
      | comma => exact .cons trivial hrec
      | bang => exact .cons trivial hrec
      | btw body rest hb _ => exact .comment hb hrec
      | obtw body rest hb =>
        refine .cons (fun u v he => hb u (v ++ rest) ?_) hrec
        rw [← List.append_assoc, he]
        simp
      | slot => exact .cons trivial hrec
      | ellipsis => exact .cons trivial hrec
      | win => exact .cons trivial hrec
      | fail => exact .cons trivial hrec
      | noob => exact .cons trivial hrec
      | keyword k rest hk h1 h2 h3 h4 h5 =>
        refine .cons (show k ∉ hiddenKeywords from ?_) hrec
        intro hm
        simp only [hiddenKeywords, List.mem_cons, List.not_mem_nil, or_false] at hm
        rcases hm with rfl | rfl | rfl | rfl | rfl | rfl
        · exact h1 rfl
        · exact h2 rfl
        · exact h5 rfl
        · exact h3 rfl
        · exact h4 rfl
        · exact hk .AN (by decide) ⟨chars!"Y OF" ++ rest, rfl⟩
      | number lex rest n hn =>
        refine .cons ?_ hrec
        cases hn with
        | int sgn ds c rest h1 h2 h3 h4 => exact h4
        | float sgn ds es c rest x h1 h2 h3 h4 h5 h6 => exact h6.2.le
      | stringClosed body after pay c rest hb he hl hc =>
        have ha := hs _ List.mem_cons_self pay rfl
        have he' : body ++ '"' :: after = pay ++ c :: rest := by simpa using he
        have hlen : pay.length = body.length := by rw [← hl, utf8Len_ascii ha]
        obtain ⟨rfl, h2⟩ := List.append_inj he' hlen.symm
        exact .cons ⟨hb, ha⟩ hrec
      | stringOpen body hb =>
        rw [h.det (.refl [] _)]
        exact .openString hb (hs _ List.mem_cons_self body rfl)
      | identifier name rest h1 h2 h3 h4 =>
        exact .cons ⟨h1, h2, fun k hk => h4 k (hk.trans (List.prefix_append _ _))⟩ hrec
      | symbol c rest h1 h2 h3 h4 h5 h6 h7 h8 h9 =>
        by_cases hd : IsDigit c
        · obtain ⟨ds, tail, he, hds, ht⟩ := exists_digits (c :: rest)
          have hne : ds ≠ [] := by
            rintro rfl
            exact ht c rest (by simpa using he.symm) hd
          have h0' : Scan (c :: rest) p (⟨.symbol [c], ⟨p, p.afterLexeme [c]⟩⟩ :: ts) [] q := h0
          show Emits ((⟨.symbol [c], ⟨p, p.afterLexeme [c]⟩⟩ :: ts : List Token).map (·.tokenType))
          have hnone : ∀ x, parseNumber (c :: rest) = .ok (some x) → False := by
            intro x hp
            rcases parseNumber_sound (c :: rest) with ⟨lex', rest', n', e1, e2, e3⟩ | e
            · exact h9 _ _ _ e1 e2
            · rw [e] at hp
              cases hp
          rw [he] at h0'
          cases tail with
          | nil =>
            rw [List.append_nil] at h0'
            obtain ⟨ts', q', g1, g2⟩ := scan_digits_end hds p
            rw [h0'.det g1, g2]
            exact .int hds
          | cons e r =>
            have hee := ht e r rfl
            by_cases hdot : e = '.'
            · subst hdot
              obtain ⟨es, tail, rfl, hes, ht'⟩ := exists_digits r
              cases tail with
              | nil =>
                rw [List.append_nil] at h0'
                obtain ⟨ts', q', g1, g2⟩ := scan_float_end hds hes p
                rw [h0'.det g1, g2]
                exact .float hds hes
              | cons e' r' =>
                have hp := parseNumber_float (sgn := []) (ds := ds) (es := es) (c := e') (r := r') (.inl rfl) hds hes
                  (ht' e' r' rfl)
                rw [if_pos (by simp [hne])] at hp
                rw [List.nil_append, List.append_assoc, List.cons_append, ← he] at hp
                exact (hnone _ hp).elim
            · obtain ⟨us, n, p', ts', g1, g2, g3, g4, g5, g6, -⟩ := scan_large hds hne hee hdot h0'
              rw [g1]
              refine digits_of_large g5 g6 g3 g4 ?_
              have hlt : (e :: r).length ≤ N := by
                have hl := congrArg List.length he
                have : 0 < ds.length := List.length_pos_iff.2 hne
                simp at hl hN ⊢
                omega
              refine ih hlt g2 ?_
              intro t ht s hts
              have hm : (.value (.string s) : TokenType) ∈
                  (⟨.symbol [c], ⟨p, p.afterLexeme [c]⟩⟩ :: ts : List Token).map (·.tokenType) := by
                rw [g1]
                simp only [List.mem_append, List.mem_cons]
                exact .inr (.inr (List.mem_map.2 ⟨t, ht, hts⟩))
              obtain ⟨t', ht', hts'⟩ := List.mem_map.1 hm
              exact hs t' ht' s hts'
        · exact .cons ⟨c, rfl, h1, h2, h3, hd, h4, h5, h6⟩ hrec

/-! ## A text for every list -/

theorem Emits.scan {tys : List TokenType} (h : Emits tys) : ∃ code : Str, ∀ p : Position, ∃ ts q,
    Scan code p ts [] q ∧ ts.map (·.tokenType) = tys := by
  induction h with
  | nil => exact ⟨[], fun p => ⟨[], p, .refl _ _, rfl⟩⟩
  | cons hw _ ih =>
    obtain ⟨code, ih⟩ := ih
    obtain ⟨lex, hl⟩ := exists_writes hw
    refine ⟨lex ++ '\t' :: code, fun p => ?_⟩
    obtain ⟨ts, q, h1, h2⟩ := ih ((p.afterLexeme lex).afterWs '\t')
    exact ⟨_, q, .tok _ _ _ _ _ _ _ (hl.lexeme code) (.ws _ _ _ _ _ _ (by decide) h1), by simp [h2]⟩
  | @comment s tys hs _ ih =>
    obtain ⟨code, ih⟩ := ih
    refine ⟨(chars!"BTW" ++ s) ++ '\n' :: code, fun p => ?_⟩
    obtain ⟨ts, q, h1, h2⟩ := ih ((p.afterLexeme (chars!"BTW" ++ s)).afterWs '\n')
    exact ⟨_, q, .tok _ _ _ _ _ _ _ (.btw s _ hs (.inr ⟨_, rfl⟩)) (.ws _ _ _ _ _ _ (by decide) h1), by simp [h2]⟩
  | @large ds d n tys hds hd h0 hn hi _ ih =>
    obtain ⟨code, ih⟩ := ih
    obtain ⟨ns, hns, hnd, hnv⟩ := exists_decimal n.toNat
    have hzs : ∀ x ∈ List.replicate 10 '0' ++ ns, IsDigit x := by
      intro x hx
      rcases List.mem_append.1 hx with hx | hx
      · rw [List.eq_of_mem_replicate hx]
        decide
      · exact hnd x hx
    have hzv : decVal (List.replicate 10 '0' ++ ns) = n.toNat := by rw [decVal_zeros, hnv]
    have hzl : 10 ≤ (List.replicate 10 '0' ++ ns).length := by simp
    generalize List.replicate 10 '0' ++ ns = zs at hzs hzv hzl
    have hzn : zs ≠ [] := by
      rintro rfl
      simp at hzl
    refine ⟨(ds ++ [d]) ++ (zs ++ '\t' :: code), fun p => ?_⟩
    have hlast : ∀ p : Position, ∃ ts q, Scan (zs ++ '\t' :: code) p ts [] q ∧
        ts.map (·.tokenType) = .value (.number (.int n)) :: tys := by
      intro p
      obtain ⟨ts, q, h1, h2⟩ := ih ((p.afterLexeme zs).afterWs '\t')
      have hsv : signedVal [] zs = n := by
        rw [signedVal, if_neg (by simp), hzv]
        omega
      have hl := NumberLexeme.int [] zs '\t' code (.inl rfl) hzn hzs (hsv ▸ hi) (by decide) (by decide)
      rw [hsv] at hl
      exact ⟨_, q, .tok _ _ _ _ _ _ _ (.number _ _ _ hl) (.ws _ _ _ _ _ _ (by decide) h1), by simp [h2]⟩
    have hbig : 2147483647 < decVal (d :: zs) := by
      rw [decVal_cons]
      have h1 : 1 ≤ d.toNat - '0'.toNat := by
        have h48 : 48 ≤ d.toNat := hd.1
        have hne : d.toNat ≠ 48 := by
          intro he
          exact h0 (Char.toNat_inj.1 he)
        have : '0'.toNat = 48 := rfl
        omega
      have h2 : 10 ^ 10 ≤ 10 ^ zs.length := Nat.pow_le_pow_right (by omega) hzl
      have h3 := Nat.mul_le_mul h1 h2
      omega
    have hstep : ∀ (us : Str) (p : Position), (∀ x ∈ us, IsDigit x) → ∃ ts q,
        Scan ((us ++ [d]) ++ (zs ++ '\t' :: code)) p ts [] q ∧
          ts.map (·.tokenType) = symbols (us ++ [d]) ++ .value (.number (.int n)) :: tys := by
      intro us
      have hsym : ∀ (us : Str) (x : Char), IsDigit x → (∀ y ∈ us, IsDigit y) → 2147483647 < decVal (x :: (us ++ zs)) →
          Lexeme [x] (us ++ (zs ++ '\t' :: code)) (.symbol [x]) := by
        intro us x hx hus hb
        refine digit_symbol hx ?_
        have hp := parseNumber_int (sgn := []) (ds := x :: (us ++ zs)) (c := '\t') (r := code) (.inl rfl) (by
          intro y hy
          simp only [List.mem_cons, List.mem_append] at hy
          rcases hy with rfl | hy | hy
          · exact hx
          · exact hus y hy
          · exact hzs y hy) (by decide) (by decide) (fun _ h => absurd h (by simp))
        rw [if_neg] at hp
        · simpa using hp
        · rintro ⟨-, hh⟩
          have := hh.2
          simp [signedVal] at this
          omega
      induction us with
      | nil =>
        intro p _
        obtain ⟨ts, q, h1, h2⟩ := hlast (p.afterLexeme [d])
        exact ⟨_, q, .tok [d] _ _ _ _ _ _ (hsym [] d hd (by simp) hbig) h1, by simp [h2, symbols]⟩
      | cons x us ihus =>
        intro p hus
        obtain ⟨ts, q, h1, h2⟩ := ihus (p.afterLexeme [x]) (fun y hy => hus y (by simp [hy]))
        have hge : ∀ us : Str, decVal (d :: zs) ≤ decVal (us ++ (d :: zs)) := by
          intro us
          induction us with
          | nil => exact Nat.le_refl _
          | cons y us ih =>
            rw [List.cons_append, decVal_cons y]
            omega
        have hl := hsym (us ++ [d]) x (hus x (by simp)) (by
          intro y hy
          rcases List.mem_append.1 hy with hy | hy
          · exact hus y (by simp [hy])
          · simp at hy
            exact hy ▸ hd) (by
          have := hge (x :: us)
          simp only [List.cons_append, List.append_assoc, List.nil_append] at this ⊢
          omega)
        exact ⟨_, q, .tok [x] _ _ _ _ _ _ hl h1, by simp [h2, symbols]⟩
    exact hstep ds p hds
  | @openString s hs ha =>
    exact ⟨'"' :: s, fun p => ⟨_, _, by simpa using Scan.tok ('"' :: s) [] _ p [] _ _ (.stringOpen s hs) (.refl _ _), rfl⟩⟩
  | int hds => exact ⟨_, fun p => scan_digits_end hds p⟩
  | float hds hes => exact ⟨_, fun p => scan_float_end hds hes p⟩

end Lol
