import Verif.Lexer.Cost
import Verif.Lexer.Run

/-! # Helper lemmas: the work that `tokenize` does -/

namespace Lol

/-! ## The parts -/

theorem sliceTo_ok {s a : Str} {n : Nat} (h : sliceTo s n = .ok a) : a <+: s ∧ utf8Len a = n := by
  rcases sliceTo_cases s n with ⟨x, y, h1, h2, h3⟩ | ⟨_, h3⟩
  · rw [h3] at h
    cases h
    exact ⟨⟨y, h1.symm⟩, h2⟩
  · rw [h3] at h
    cases h

theorem sliceFrom_ok {s b : Str} {n : Nat} (h : sliceFrom s n = .ok b) : ∃ a, s = a ++ b ∧ utf8Len a = n := by
  unfold sliceFrom at h
  split at h
  · rename_i a b' hs
    cases h
    exact ⟨a, splitAtByte_some hs⟩
  · cases h

theorem prefixSlice_ok {pat code a : Str} {n : Nat} (h : prefixSlice pat n code = .ok (some a)) : a <+: code := by
  unfold prefixSlice at h
  split at h
  · split at h
    · rename_i s hs
      cases h
      exact (sliceTo_ok hs).1
    · cases h
    · cases h
  · cases h

theorem utf8Len_prefix {a s : Str} (h : a <+: s) : utf8Len a ≤ utf8Len s := by
  obtain ⟨b, rfl⟩ := h
  simp

theorem parseEllipsis_ok {code a : Str} (h : parseEllipsis code = .ok (some a)) : a <+: code := by
  unfold parseEllipsis at h
  split at h <;> exact prefixSlice_ok h

theorem parseBoolean_ok {code a : Str} {b : Bool} (h : parseBoolean code = .ok (some (a, b))) : a <+: code := by
  unfold parseBoolean at h
  split at h
  · cases h
  · cases h
  · rename_i s hs
    cases h
    exact prefixSlice_ok hs
  · split at h
    · cases h
    · cases h
    · rename_i s hs
      cases h
      exact prefixSlice_ok hs
    · cases h

theorem parseKeyword_ok {code a : Str} {k : Keyword} (h : parseKeyword code = .ok (some (a, k))) : a <+: code := by
  unfold parseKeyword at h
  split at h
  · cases h
  · split at h
    · rename_i s hs
      cases h
      exact (sliceTo_ok hs).1
    · cases h
    · cases h

theorem parseNumber_ok {code a : Str} {n : NumberToken} (h : parseNumber code = .ok (some (a, n))) : a <+: code := by
  unfold parseNumber at h
  split at h
  · cases h
  · split at h
    · cases h
    · cases h
    · rename_i s hs
      have hp := (sliceTo_ok hs).1
      split at h
      · split at h <;> cases h
        exact hp
      · split at h <;> cases h
        exact hp

theorem keywordLooks_le (code : Str) (ks : List Keyword) :
    keywordLooks code ks ≤ (ks.map fun k => k.text.length).sum := by
  induction ks with
  | nil => exact Nat.le_refl _
  | cons k ks ih =>
    rw [keywordLooks, List.map_cons, List.sum_cons]
    split <;> omega

theorem keywords_length : (Keyword.all.map fun k => k.text.length).sum = 335 := by decide +kernel

/-! ## Numbers -/

/-- No run of digits is longer than `r`. -/
def RunsWithin (r : Nat) (s : Str) : Prop := ∀ ds, ds <:+: s → (∀ d ∈ ds, IsDigit d) → ds.length ≤ r

theorem RunsWithin.infix {r : Nat} {s t : Str} (h : RunsWithin r s) (ht : t <:+: s) : RunsWithin r t :=
  fun ds hd => h ds (hd.trans ht)

theorem numLooks_digits (i : Nat) (dot : Bool) (ds rest : Str) (h : ∀ d ∈ ds, IsDigit d) :
    numLooks i dot (ds ++ rest) = ds.length + numLooks (i + ds.length) dot rest := by
  induction ds generalizing i with
  | nil => simp
  | cons d ds ih =>
    have hd : IsDigit d := h d (by simp)
    have hs := hd.not_sign
    have hd' : '0' ≤ d ∧ d ≤ '9' := hd
    rw [List.cons_append, numLooks, if_neg (by simp [hs.1, hs.2.1]), if_pos hd',
      ih (i + 1) (fun e he => h e (by simp [he]))]
    simp only [List.length_cons]
    rw [show i + 1 + ds.length = i + (ds.length + 1) by omega]
    omega

/-- After the dot. -/
theorem numLooks_true {r i : Nat} {s : Str} (hs : RunsWithin r s) (hi : i ≠ 0) : numLooks i true s ≤ r + 1 := by
  obtain ⟨ds, tail, rfl, hd, ht⟩ := exists_digits s
  have hr := hs ds (List.prefix_append ds tail).isInfix hd
  rw [numLooks_digits _ _ _ _ hd]
  cases tail with
  | nil => simp only [numLooks]; omega
  | cons c t =>
    have hc : ¬ ('0' ≤ c ∧ c ≤ '9') := ht c t rfl
    rw [numLooks, if_neg (by intro h; omega), if_neg hc, if_neg (by simp)]
    omega

/-- After the sign. -/
theorem numLooks_false {r i : Nat} {s : Str} (hs : RunsWithin r s)
    (hi : i = 0 → ∀ c t, s = c :: t → c ≠ '-' ∧ c ≠ '+') : numLooks i false s ≤ 2 * r + 2 := by
  obtain ⟨ds, tail, rfl, hd, ht⟩ := exists_digits s
  have hr := hs ds (List.prefix_append ds tail).isInfix hd
  rw [numLooks_digits _ _ _ _ hd]
  cases tail with
  | nil => simp only [numLooks]; omega
  | cons c t =>
    have hc : ¬ ('0' ≤ c ∧ c ≤ '9') := ht c t rfl
    have hsign : ¬ (i + ds.length = 0 ∧ (c = '-' ∨ c = '+')) := by
      rintro ⟨h1, h2⟩
      have hds : ds = [] := List.eq_nil_of_length_eq_zero (by omega)
      subst hds
      have := hi (by omega) c t rfl
      rcases h2 with h2 | h2
      · exact this.1 h2
      · exact this.2 h2
    rw [numLooks, if_neg hsign, if_neg hc]
    split
    · have := numLooks_true (i := i + ds.length + 1) (hs.infix (t := t) ⟨ds ++ [c], [], by simp⟩) (by omega)
      omega
    · omega

theorem numLooks_le {r : Nat} {s : Str} (hs : RunsWithin r s) : numLooks 0 false s ≤ 2 * r + 3 := by
  cases s with
  | nil => simp [numLooks]
  | cons c t =>
    by_cases hc : c = '-' ∨ c = '+'
    · rw [numLooks, if_pos ⟨rfl, hc⟩]
      have := numLooks_false (i := 0 + 1) (hs.infix (t := t) ⟨[c], [], by simp⟩) (by omega)
      omega
    · have := numLooks_false (i := 0) hs (by
        rintro - d u h
        cases h
        exact ⟨fun h => hc (.inl h), fun h => hc (.inr h)⟩)
      omega

/-- What `position` returns is one less than what it looks at. -/
theorem numScan_looks {s : Str} : ∀ {i : Nat} {dot : Bool} {n : Nat} {b : Bool}, numScan i dot s = some (n, b) →
    n + 1 = i + numLooks i dot s := by
  induction s with
  | nil => intro i dot n b h; cases h
  | cons c s ih =>
    intro i dot n b h
    rw [numScan] at h
    rw [numLooks]
    split at h
    · rw [if_pos (by assumption)]
      have := ih h
      omega
    · rw [if_neg (by assumption)]
      split at h
      · rw [if_pos (by assumption)]
        have := ih h
        omega
      · rw [if_neg (by assumption)]
        split at h
        · rw [if_pos (by assumption)]
          have := ih h
          omega
        · rw [if_neg (by assumption)]
          cases h
          rfl

theorem numberLooks_le {r : Nat} {s : Str} (hs : RunsWithin r s) : numberLooks s ≤ 4 * r + 5 := by
  have h1 := numLooks_le hs
  unfold numberLooks
  split
  · rename_i n b h
    have := numScan_looks h
    omega
  · omega

/-! ## Comments -/

theorem findLooks_le {pat : Str} (s : Str) : findLooks pat s ≤ s.length := by
  induction s with
  | nil => exact Nat.le_refl _
  | cons c s ih =>
    rw [findLooks]
    split
    · rename_i h
      exact (isPrefixOf_iff.1 h).length_le
    · simp only [List.length_cons]
      omega

theorem findLooks_some {pat s : Str} (hp : pat ≠ []) {n : Nat} (h : findSub pat s = some n) :
    findLooks pat s ≤ n + pat.length := by
  induction s generalizing n with
  | nil =>
    simp only [findLooks]
    omega
  | cons c s ih =>
    rw [findSub] at h
    rw [findLooks]
    split at h
    · rw [if_pos (by assumption)]
      omega
    · rw [if_neg (by assumption)]
      split at h
      · rename_i m hm
        cases h
        have := ih hm
        have := utf8Size_pos c
        omega
      · cases h

theorem singleLine_some {code raw text : Str} (h : parseSingleLineComment code = .ok (some (raw, text))) :
    raw <+: code ∧ singleLineLooks code ≤ 4 + utf8Len raw := by
  unfold parseSingleLineComment at h
  unfold singleLineLooks
  split at h
  · rename_i hp
    rw [if_pos hp]
    dsimp only at h
    split at h
    · rename_i h1 h2
      cases h
      obtain ⟨h3, h4⟩ := sliceTo_ok h2
      refine ⟨h3, ?_⟩
      have hb : Keyword.BTW.text.length = 3 := by decide
      rw [hb, h4]
      cases hf : findSub ['\n'] code with
      | none =>
        have := findLooks_le (pat := ['\n']) code
        have := utf8Len_ge_length code
        simp only [Option.getD_none]
        omega
      | some n =>
        have := findLooks_some (by simp) hf
        simp only [List.length_singleton] at this
        simp only [Option.getD_some]
        omega
    all_goals cases h
  · cases h

theorem singleLine_none {code : Str} (h : parseSingleLineComment code = .ok none) : singleLineLooks code ≤ 4 := by
  unfold parseSingleLineComment at h
  unfold singleLineLooks
  split at h
  · dsimp only at h
    split at h <;> cases h
  · rename_i hp
    rw [if_neg hp]
    decide

theorem singleLine_le (code : Str) : singleLineLooks code ≤ 4 + utf8Len code := by
  have h1 := findLooks_le (pat := ['\n']) code
  have h2 := utf8Len_ge_length code
  have hb : Keyword.BTW.text.length = 3 := by decide
  unfold singleLineLooks
  split <;> omega

theorem multiLine_some {code raw text : Str} (h : parseMultiLineComment code = .ok (.ok (some (raw, text)))) :
    raw <+: code ∧ multiLineLooks code ≤ 4 + utf8Len raw := by
  unfold parseMultiLineComment at h
  unfold multiLineLooks
  split at h
  · rename_i hp
    rw [if_pos hp]
    split at h
    · cases h
    · rename_i n hf
      split at h
      · rename_i h1 h2
        cases h
        obtain ⟨h3, h4⟩ := sliceTo_ok h2
        refine ⟨h3, ?_⟩
        have hb : Keyword.OBTW.text.length = 4 := by decide
        have ht : utf8Len Keyword.TLDR.text = Keyword.TLDR.text.length := by decide
        have := findLooks_some (by decide) hf
        omega
      all_goals cases h
  · cases h

theorem multiLine_none {code : Str} (h : parseMultiLineComment code = .ok (.ok none)) : multiLineLooks code ≤ 4 := by
  unfold parseMultiLineComment at h
  unfold multiLineLooks
  split at h
  · split at h
    · cases h
    · split at h <;> cases h
  · rename_i hp
    rw [if_neg hp]
    decide

theorem multiLine_le (code : Str) : multiLineLooks code ≤ 4 + utf8Len code := by
  have h1 := findLooks_le (pat := Keyword.TLDR.text) code
  have h2 := utf8Len_ge_length code
  have hb : Keyword.OBTW.text.length = 4 := by decide
  unfold multiLineLooks
  split <;> omega

/-! ## Strings and identifiers -/

theorem strLooks_le : ∀ s : Str, strLooks s ≤ 2 * s.length
  | [] => Nat.le_refl _
  | [c] => by
    have ih := strLooks_le []
    simp only [strLooks, List.length_cons, List.length_nil] at *
    split
    · omega
    · split <;> omega
  | c :: d :: ds => by
    have ih := strLooks_le (d :: ds)
    have ih' := strLooks_le ds
    rw [strLooks.eq_def]
    simp only [List.length_cons] at *
    split
    · split <;> omega
    · split <;> omega

theorem strScan_looks : ∀ (s : Str) {i n : Nat}, strScan i s = some n → strLooks s + 2 * i ≤ 2 * (n + 1)
  | [], i, n, h => by cases h
  | [c], i, n, h => by
    rw [strScan.eq_def] at h
    rw [strLooks.eq_def]
    dsimp only at h ⊢
    split at h
    · cases h
    · rename_i h1
      rw [if_neg h1]
      split at h
      · rename_i h2
        rw [if_pos h2]
        cases h
        omega
      · cases h
  | c :: d :: ds, i, n, h => by
    have ih := fun {i n} => strScan_looks (d :: ds) (i := i) (n := n)
    have ih' := fun {i n} => strScan_looks ds (i := i) (n := n)
    rw [strScan.eq_def] at h
    rw [strLooks.eq_def]
    dsimp only at h ⊢
    split at h
    · rename_i h1
      rw [if_pos h1]
      split at h
      · rename_i h2
        rw [if_pos h2]
        have := ih' h
        omega
      · rename_i h2
        rw [if_neg h2]
        have := ih h
        omega
    · rename_i h1
      rw [if_neg h1]
      split at h
      · rename_i h2
        rw [if_pos h2]
        cases h
        omega
      · rename_i h2
        rw [if_neg h2]
        have := ih h
        omega

theorem string_some {code raw text : Str} (h : parseString code = .ok (some (raw, text))) :
    raw <+: code ∧ stringLooks code ≤ 1 + 2 * utf8Len raw := by
  cases code with
  | nil => cases h
  | cons c cs =>
    unfold parseString at h
    unfold stringLooks
    dsimp only at h ⊢
    split at h
    · cases h
    · rename_i hc
      rw [if_neg hc]
      split at h
      · rename_i n hn
        split at h
        · rename_i h1 h2
          cases h
          obtain ⟨h3, h4⟩ := sliceTo_ok h1
          have := strScan_looks cs hn
          exact ⟨h3, by omega⟩
        all_goals cases h
      · split at h
        · cases h
          have h1 := strLooks_le cs
          have h2 := utf8Len_ge_length (c :: cs)
          simp only [List.length_cons] at h2
          exact ⟨List.prefix_refl _, by omega⟩
        · cases h
        · cases h

theorem string_none {code : Str} (h : parseString code = .ok none) : stringLooks code ≤ 1 := by
  cases code with
  | nil => cases h
  | cons c cs =>
    unfold parseString at h
    unfold stringLooks
    dsimp only at h ⊢
    split at h
    · rename_i hc
      rw [if_pos hc]
      exact Nat.le_refl _
    · split at h
      · split at h <;> cases h
      · split at h <;> cases h

theorem string_le (code : Str) : stringLooks code ≤ 1 + 2 * utf8Len code := by
  have h2 := utf8Len_ge_length code
  cases code with
  | nil => simp [stringLooks]
  | cons c cs =>
    have h1 := strLooks_le cs
    simp only [List.length_cons] at h2
    unfold stringLooks
    split <;> rename_i h <;> cases h
    split <;> omega

theorem identLooks_le (s : Str) : identLooks s ≤ (s.takeWhile isIdentChar).length + 1 := by
  induction s with
  | nil => simp [identLooks]
  | cons c s ih =>
    rw [identLooks]
    split
    · rename_i h
      rw [List.takeWhile_cons_of_pos h]
      simp only [List.length_cons]
      omega
    · omega

theorem ident_some {code raw : Str} (h : parseIdentifier code = .ok (some raw)) :
    raw <+: code ∧ identLooks code ≤ 1 + utf8Len raw := by
  unfold parseIdentifier at h
  dsimp only at h
  split at h
  · cases h
  · split at h
    · rename_i s hs
      cases h
      obtain ⟨h3, h4⟩ := sliceTo_ok hs
      have := identLooks_le code
      exact ⟨h3, by omega⟩
    all_goals cases h

theorem ident_none {code : Str} (h : parseIdentifier code = .ok none) : identLooks code ≤ 1 := by
  unfold parseIdentifier at h
  dsimp only at h
  split at h
  · have := identLooks_le code
    omega
  · split at h <;> cases h

theorem ident_le (code : Str) : identLooks code ≤ 1 + utf8Len code := by
  have h1 := identLooks_le code
  have h2 := utf8Len_ge_length code
  have h3 := (List.takeWhile_prefix isIdentChar (l := code)).length_le
  omega

/-! ## White space -/

theorem wsLooks_le (s : Str) (p : Position) : wsLooks s ≤ (parseWhitespace s p).1 + 1 := by
  induction s generalizing p with
  | nil => simp [wsLooks]
  | cons c s ih =>
    rw [wsLooks, parseWhitespace]
    split
    · have := ih { line := p.line + 1, column := 1, bytes := p.bytes + c.utf8Size, chars := p.chars + 1 }
      dsimp only
      omega
    · split
      · have := ih { p with column := p.column + 1, bytes := p.bytes + c.utf8Size, chars := p.chars + 1 }
        dsimp only
        omega
      · omega

theorem wsLooks_le_length (s : Str) : wsLooks s ≤ s.length := by
  induction s with
  | nil => exact Nat.le_refl _
  | cons c s ih =>
    rw [wsLooks]
    simp only [List.length_cons]
    split
    · omega
    · split <;> omega

/-! ## A round -/

/-- At most `a` looks, and three for each byte that the round removes. -/
def Fine (a : Nat) (code : Str) (x : Counted Step) : Prop :=
  match x.result with
  | .ok (.skip rest _) => x.count + 3 * utf8Len rest ≤ a + 3 * utf8Len code
  | .ok (.tok _ rest _) => x.count + 3 * utf8Len rest ≤ a + 3 * utf8Len code
  | _ => x.count ≤ a + 3 * utf8Len code

theorem Fine.mono {a b : Nat} {code : Str} {x : Counted Step} (h : Fine a code x) (hab : a ≤ b) :
    Fine b code x := by
  unfold Fine at *
  split at h <;> omega

theorem Fine.le {a : Nat} {code : Str} {x : Counted Step} (h : Fine a code x) : x.count ≤ a + 3 * utf8Len code := by
  unfold Fine at h
  split at h <;> omega

theorem Fine.look_ok {β : Type} {a b n : Nat} {code : Str} {v : β} {f : β → Counted Step} (h : Fine b code (f v))
    (hn : n + b ≤ a) : Fine a code (look n (.ok v) >>= f) := by
  change Fine a code ⟨(f v).result, n + (f v).count⟩
  unfold Fine at *
  dsimp only
  split at h <;> omega

theorem Fine.look_bad {β : Type} {a n : Nat} {code : Str} {o : Out β} {f : β → Counted Step} (ho : ∀ v, o ≠ .ok v)
    (hn : n ≤ a + 3 * utf8Len code) : Fine a code (look n o >>= f) := by
  cases o with
  | ok v => exact absurd rfl (ho v)
  | panic p => exact hn
  | outOfFuel => exact hn

theorem Fine.bind {β : Type} {a b n : Nat} {code : Str} {o : Out β} {f : β → Counted Step}
    (h : ∀ v, o = .ok v → Fine b code (f v)) (hn : n + b ≤ a) : Fine a code (look n o >>= f) := by
  cases o with
  | ok v => exact Fine.look_ok (h v rfl) hn
  | panic p => exact Fine.look_bad (by simp) (by omega)
  | outOfFuel => exact Fine.look_bad (by simp) (by omega)

/-- A token that is made after `n` looks. -/
theorem Fine.token {β : Type} {a n : Nat} {code raw : Str} {pos : Position} {ty : TokenType} {v : β}
    {f : β → Counted Step} (hf : f v = makeTokenCounted code pos raw ty) (hp : raw <+: code)
    (hn : n ≤ a + 2 * utf8Len raw) : Fine a code (look n (.ok v) >>= f) := by
  change Fine a code ⟨(f v).result, n + (f v).count⟩
  rw [hf]
  obtain ⟨rest, rfl⟩ := hp
  have hm : makeToken (raw ++ rest) pos raw ty
      = .ok (.tok { range := { start := pos, stop := pos.addAssign raw }, tokenType := ty } rest
          (pos.addAssign raw)) := by
    unfold makeToken
    rw [sliceFrom_append]
  unfold Fine makeTokenCounted look
  dsimp only
  rw [hm]
  dsimp only
  have := utf8Len_ge_length raw
  simp only [utf8Len_append]
  omega

theorem Fine.made {a : Nat} {code raw : Str} {pos : Position} {ty : TokenType} (hp : raw <+: code) :
    Fine a code (makeTokenCounted code pos raw ty) := by
  have h := Fine.token (a := a) (n := 0) (v := ()) (f := fun _ => makeTokenCounted code pos raw ty) rfl hp (by omega)
  change Fine a code ⟨(makeTokenCounted code pos raw ty).result, 0 + (makeTokenCounted code pos raw ty).count⟩ at h
  rwa [Nat.zero_add] at h

/-- White space that is left out after `n` looks. -/
theorem Fine.skip {β : Type} {m n : Nat} {code : Str} {q : Position} {v : β} {f : β → Counted Step}
    (hf : f v = (look 0 (sliceFrom code m) >>= fun rest => (pure (Step.skip rest q) : Counted Step)))
    (hn : n ≤ 1 + m) (hn' : n ≤ utf8Len code) : Fine 1 code (look n (.ok v) >>= f) := by
  change Fine 1 code ⟨(f v).result, n + (f v).count⟩
  rw [hf]
  cases hs : sliceFrom code m with
  | ok rest =>
    obtain ⟨a, rfl, ha⟩ := sliceFrom_ok hs
    change n + (0 + 0) + 3 * utf8Len rest ≤ 1 + 3 * utf8Len (a ++ rest)
    rw [utf8Len_append]
    omega
  | panic p =>
    change n + 0 ≤ 1 + 3 * utf8Len code
    omega
  | outOfFuel =>
    change n + 0 ≤ 1 + 3 * utf8Len code
    omega

/-- Something that is searched for with `n` looks, and a rest that needs `b`. -/
theorem Fine.search {β : Type} {a b m n : Nat} {code : Str} {pos : Position} {o : Out (Option β)}
    {f : Option β → Counted Step} {raw : β → Str} {ty : β → TokenType}
    (hf : ∀ v, f (some v) = makeTokenCounted code pos (raw v) (ty v))
    (hsome : ∀ v, o = .ok (some v) → raw v <+: code ∧ n ≤ m + 2 * utf8Len (raw v))
    (hnone : o = .ok none → n ≤ m ∧ Fine b code (f none))
    (hbad : n ≤ m + 2 * utf8Len code) (ha : m + b ≤ a) : Fine a code (look n o >>= f) := by
  cases o with
  | ok v =>
    cases v with
    | none =>
      obtain ⟨h1, h2⟩ := hnone rfl
      exact Fine.look_ok h2 (by omega)
    | some v =>
      obtain ⟨h1, h2⟩ := hsome v rfl
      exact Fine.token (hf v) h1 (by omega)
  | panic p => exact Fine.look_bad (by simp) (by omega)
  | outOfFuel => exact Fine.look_bad (by simp) (by omega)

theorem lexStepCounted_fine {r : Nat} {code : Str} (hr : RunsWithin r code) (pos : Position) :
    Fine (4 * r + 374) code (lexStepCounted code pos) := by
  unfold lexStepCounted
  have hw := wsLooks_le code pos
  have hl := utf8Len_ge_length code
  have hw' := wsLooks_le_length code
  have hone : ∀ n : Nat, ∀ ty : TokenType, n ≤ 300 →
      Fine 300 code (look n (sliceTo code 1) >>= fun raw => makeTokenCounted code pos raw ty) := fun n ty hn =>
    Fine.bind (b := 0) (fun v hv => Fine.made (sliceTo_ok hv).1) (by omega)
  by_cases h0 : (parseWhitespace code pos).1 > 0
  · exact (Fine.skip (m := (parseWhitespace code pos).1) (q := (parseWhitespace code pos).2)
      (by rw [if_pos h0]) (by omega) (by omega)).mono (by omega)
  refine Fine.look_ok (b := 4 * r + 373) ?_ (by omega)
  rw [if_neg h0]
  split
  · exact (hone 1 _ (by omega)).mono (by omega)
  split
  · exact (hone 2 _ (by omega)).mono (by omega)
  refine Fine.search (m := 7) (b := 4 * r + 366) (raw := fun v => v.1) (ty := fun v => .commentSingleLine v.2)
    (fun v => rfl) (fun v hv => ?_) (fun hv => ⟨?_, ?_⟩) ?_ (by omega)
  · have := singleLine_some (raw := v.1) (text := v.2) hv
    exact ⟨this.1, by omega⟩
  · have := singleLine_none hv
    omega
  rotate_left
  · have := singleLine_le code
    omega
  dsimp only
  have hm := multiLine_le code
  cases hml : parseMultiLineComment code with
  | panic p => exact Fine.look_bad (by simp) (by omega)
  | outOfFuel => exact Fine.look_bad (by simp) (by omega)
  | ok v =>
  rcases v with _ | _ | ⟨raw, text⟩
  · change multiLineLooks code + code.length ≤ _
    omega
  rotate_left
  · have := multiLine_some hml
    exact Fine.token (raw := raw) rfl this.1 (by omega)
  refine Fine.look_ok (b := 4 * r + 362) ?_ (by have := multiLine_none hml; omega)
  refine Fine.search (m := 2) (b := 4 * r + 360) (raw := id) (ty := fun _ => .bukkitSlotAccess)
    (fun v => rfl) (fun v hv => ⟨prefixSlice_ok hv, by omega⟩) (fun _ => ⟨by omega, ?_⟩) (by omega) (by omega)
  refine Fine.search (m := 4) (b := 4 * r + 356) (raw := id) (ty := fun _ => .ellipsis)
    (fun v => rfl) (fun v hv => ⟨parseEllipsis_ok hv, by omega⟩) (fun _ => ⟨by omega, ?_⟩) (by omega) (by omega)
  have hwf : Keyword.WIN.text.length + Keyword.FAIL.text.length = 7 := by decide
  refine Fine.search (m := 7) (b := 4 * r + 349) (raw := fun v => v.1) (ty := fun v => .value (.boolean v.2))
    (fun v => rfl) (fun v hv => ⟨parseBoolean_ok hv, by omega⟩) (fun _ => ⟨by omega, ?_⟩) (by omega) (by omega)
  have hnb : Keyword.NOOB.text.length = 4 := by decide
  refine Fine.search (m := 4) (b := 4 * r + 345) (raw := id) (ty := fun _ => .value .noob)
    (fun v => rfl) (fun v hv => ⟨prefixSlice_ok hv, by omega⟩) (fun _ => ⟨by omega, ?_⟩) (by omega) (by omega)
  have hk := keywordLooks_le code Keyword.all
  rw [keywords_length] at hk
  refine Fine.search (m := 335) (b := 4 * r + 10) (raw := fun v => v.1) (ty := fun v => .keyword v.2)
    (fun v => rfl) (fun v hv => ⟨parseKeyword_ok hv, by omega⟩) (fun _ => ⟨by omega, ?_⟩) (by omega) (by omega)
  have hn := numberLooks_le hr
  refine Fine.search (m := 4 * r + 5) (b := 5) (raw := fun v => v.1) (ty := fun v => .value (.number v.2))
    (fun v => rfl) (fun v hv => ⟨parseNumber_ok hv, by omega⟩) (fun _ => ⟨by omega, ?_⟩) (by omega) (by omega)
  refine Fine.search (m := 1) (b := 4) (raw := fun v => v.1) (ty := fun v => .value (.string v.2))
    (fun v => rfl) (fun v hv => string_some hv) (fun hv => ⟨string_none hv, ?_⟩) (string_le code) (by omega)
  refine Fine.search (m := 1) (b := 3) (raw := id) (ty := fun v => .identifier v)
    (fun v => rfl) (fun v hv => ?_) (fun hv => ⟨ident_none hv, ?_⟩) ?_ (by omega)
  · have := ident_some hv
    exact ⟨this.1, by simp only [id]; omega⟩
  · exact Fine.bind (b := 0) (fun v hv => Fine.made (sliceTo_ok hv).1) (by omega)
  · have := ident_le code
    omega

/-! ## The loop -/

theorem Counted.count_bind_ok {α β : Type} {x : Counted α} {f : α → Counted β} {a : α} (h : x.result = .ok a) :
    (x >>= f).count = x.count + (f a).count := by
  change (x.bind f).count = _
  unfold Counted.bind
  rw [h]

theorem Counted.count_bind_bad {α β : Type} {x : Counted α} {f : α → Counted β} (h : ∀ a, x.result ≠ .ok a) :
    (x >>= f).count = x.count := by
  change (x.bind f).count = _
  unfold Counted.bind
  cases hx : x.result with
  | ok a => exact absurd hx (h a)
  | panic p => rfl
  | outOfFuel => rfl

/-- What the loop does with the result of a round adds no looks of its own. -/
theorem tokenizeLoopCounted_count (n : Nat) {code : Str} (h : code ≠ []) (pos : Position) :
    (tokenizeLoopCounted (n + 1) code pos).count = (lexStepCounted code pos).count +
      match lexStep code pos with
      | .ok (.skip code' pos') => (tokenizeLoopCounted n code' pos').count
      | .ok (.tok _ code' pos') => (tokenizeLoopCounted n code' pos').count
      | _ => 0 := by
  rw [tokenizeLoopCounted, if_pos (utf8Len_pos h)]
  have hr := lexStepCounted_result code pos
  cases hs : lexStep code pos with
  | panic p =>
    rw [hs] at hr
    rw [Counted.count_bind_bad (by simp [hr])]
    rfl
  | outOfFuel =>
    rw [hs] at hr
    rw [Counted.count_bind_bad (by simp [hr])]
    rfl
  | ok s =>
    rw [hs] at hr
    rw [Counted.count_bind_ok hr]
    cases s with
    | fail e => rfl
    | skip code' pos' => rfl
    | tok t code' pos' =>
      dsimp only
      congr 1
      cases hx : (tokenizeLoopCounted n code' pos').result with
      | ok r =>
        rw [Counted.count_bind_ok hx]
        cases r <;> rfl
      | panic p => exact Counted.count_bind_bad (by simp [hx])
      | outOfFuel => exact Counted.count_bind_bad (by simp [hx])

theorem tokenizeLoopCounted_nil (n : Nat) (pos : Position) : (tokenizeLoopCounted n [] pos).count = 0 := by
  cases n with
  | zero => rfl
  | succ n => rw [tokenizeLoopCounted, if_neg (by simp)]; rfl

theorem tokenizeLoopCounted_le {r : Nat} (n : Nat) : ∀ {code : Str}, RunsWithin r code → ∀ pos,
    (tokenizeLoopCounted n code pos).count ≤ (4 * r + 377) * utf8Len code := by
  induction n with
  | zero => intro code _ pos; exact Nat.zero_le _
  | succ n ih =>
    intro code hr pos
    by_cases hne : code = []
    · subst hne
      rw [tokenizeLoopCounted_nil]
      exact Nat.zero_le _
    · rw [tokenizeLoopCounted_count n hne]
      have hf := lexStepCounted_fine hr pos
      have hpos := utf8Len_pos hne
      have hbig : 4 * r + 374 ≤ (4 * r + 374) * utf8Len code := Nat.le_mul_of_pos_right _ hpos
      have hsplit : (4 * r + 377) * utf8Len code = (4 * r + 374) * utf8Len code + 3 * utf8Len code := by
        rw [← Nat.add_mul]
      have hstep : ∀ u v : Str, code = u ++ v → u ≠ [] → ∀ q : Position,
          (lexStepCounted code pos).count + 3 * utf8Len v ≤ 4 * r + 374 + 3 * utf8Len code →
          (lexStepCounted code pos).count + (tokenizeLoopCounted n v q).count ≤ (4 * r + 377) * utf8Len code := by
        intro u v huv hu q hc
        have h1 := ih (hr.infix (t := v) ⟨u, [], by simp [huv]⟩) q
        have h2 := utf8Len_pos hu
        have h3 : utf8Len code = utf8Len u + utf8Len v := by rw [huv, utf8Len_append]
        have h4 : 4 * r + 374 ≤ (4 * r + 374) * utf8Len u := Nat.le_mul_of_pos_right _ h2
        have h5 : (4 * r + 377) * utf8Len v = (4 * r + 374) * utf8Len v + 3 * utf8Len v := by rw [← Nat.add_mul]
        have h6 : (4 * r + 374) * utf8Len code = (4 * r + 374) * utf8Len u + (4 * r + 374) * utf8Len v := by
          rw [h3, Nat.mul_add]
        omega
      rcases step_cases code hne pos with ⟨ws, rest, h1, h2, -, -, h3⟩ | ⟨lex, rest, ty, h1, h2, h3⟩ | ⟨-, h3⟩ | ⟨-, h3⟩
      · unfold Fine at hf
        rw [lexStepCounted_result, h3] at hf
        rw [h3]
        exact hstep ws rest h1 h2 _ hf
      · unfold Fine at hf
        rw [lexStepCounted_result, h3] at hf
        rw [h3]
        exact hstep lex rest h1 h2.ne_nil _ hf
      · have := hf.le
        rw [h3]
        dsimp only
        omega
      · have := hf.le
        rw [h3]
        dsimp only
        omega

/-! ## At least -/

/-- Every character that the round removes is looked at. -/
def Covers (code : Str) (x : Counted Step) : Prop :=
  match x.result with
  | .ok (.skip rest _) => code.length ≤ x.count + rest.length
  | .ok (.tok _ rest _) => code.length ≤ x.count + rest.length
  | .ok (.fail _) => code.length ≤ x.count
  | _ => True

theorem Covers.bind {β : Type} {n : Nat} {code : Str} {o : Out β} {f : β → Counted Step}
    (h : ∀ v, o = .ok v → Covers code (f v)) : Covers code (look n o >>= f) := by
  cases o with
  | ok v =>
    have := h v rfl
    change Covers code ⟨(f v).result, n + (f v).count⟩
    unfold Covers at *
    dsimp only
    split at this <;> first | omega | trivial
  | panic p => trivial
  | outOfFuel => trivial

theorem Covers.made {code raw : Str} {pos : Position} {ty : TokenType} (hp : raw <+: code) :
    Covers code (makeTokenCounted code pos raw ty) := by
  obtain ⟨rest, rfl⟩ := hp
  unfold Covers makeTokenCounted look makeToken
  rw [sliceFrom_append]
  simp

theorem Covers.search {β : Type} {n : Nat} {code : Str} {pos : Position} {o : Out (Option β)}
    {f : Option β → Counted Step} {raw : β → Str} {ty : β → TokenType}
    (hf : ∀ v, f (some v) = makeTokenCounted code pos (raw v) (ty v))
    (hsome : ∀ v, o = .ok (some v) → raw v <+: code) (hnone : Covers code (f none)) :
    Covers code (look n o >>= f) := by
  refine Covers.bind fun v hv => ?_
  cases v with
  | none => exact hnone
  | some v =>
    rw [hf v]
    exact Covers.made (hsome v hv)

theorem parseWhitespace_looks (s : Str) (p : Position) : (parseWhitespace s p).1 ≤ wsLooks s := by
  induction s generalizing p with
  | nil => exact Nat.le_refl _
  | cons c s ih =>
    rw [wsLooks, parseWhitespace]
    split
    · have := ih { line := p.line + 1, column := 1, bytes := p.bytes + c.utf8Size, chars := p.chars + 1 }
      dsimp only
      omega
    · split
      · have := ih { p with column := p.column + 1, bytes := p.bytes + c.utf8Size, chars := p.chars + 1 }
        dsimp only
        omega
      · omega

theorem Covers.skip {β : Type} {m n : Nat} {code : Str} {q : Position} {v : β} {f : β → Counted Step}
    (hf : f v = (look 0 (sliceFrom code m) >>= fun rest => (pure (Step.skip rest q) : Counted Step)))
    (hn : m ≤ n) : Covers code (look n (.ok v) >>= f) := by
  change Covers code ⟨(f v).result, n + (f v).count⟩
  rw [hf]
  cases hs : sliceFrom code m with
  | ok rest =>
    obtain ⟨a, rfl, ha⟩ := sliceFrom_ok hs
    change (a ++ rest).length ≤ n + (0 + 0) + rest.length
    have := utf8Len_ge_length a
    rw [List.length_append]
    omega
  | panic p => trivial
  | outOfFuel => trivial

theorem lexStepCounted_covers (code : Str) (pos : Position) : Covers code (lexStepCounted code pos) := by
  unfold lexStepCounted
  have hone : ∀ n : Nat, ∀ ty : TokenType,
      Covers code (look n (sliceTo code 1) >>= fun raw => makeTokenCounted code pos raw ty) := fun n ty =>
    Covers.bind fun v hv => Covers.made (sliceTo_ok hv).1
  by_cases h0 : (parseWhitespace code pos).1 > 0
  · exact Covers.skip (m := (parseWhitespace code pos).1) (q := (parseWhitespace code pos).2)
      (by rw [if_pos h0]) (parseWhitespace_looks code pos)
  refine Covers.bind fun v hv => ?_
  cases hv
  rw [if_neg h0]
  split
  · exact hone 1 _
  split
  · exact hone 2 _
  refine Covers.search (raw := fun v => v.1) (ty := fun v => .commentSingleLine v.2) (fun v => rfl)
    (fun v hv => (singleLine_some (raw := v.1) (text := v.2) hv).1) ?_
  refine Covers.bind fun v hv => ?_
  rcases v with _ | _ | ⟨raw, text⟩
  · exact Nat.le_refl code.length
  rotate_left
  · exact Covers.made (multiLine_some hv).1
  refine Covers.search (raw := id) (ty := fun _ => .bukkitSlotAccess) (fun v => rfl)
    (fun v hv => prefixSlice_ok hv) ?_
  refine Covers.search (raw := id) (ty := fun _ => .ellipsis) (fun v => rfl) (fun v hv => parseEllipsis_ok hv) ?_
  refine Covers.search (raw := fun v => v.1) (ty := fun v => .value (.boolean v.2)) (fun v => rfl)
    (fun v hv => parseBoolean_ok hv) ?_
  refine Covers.search (raw := id) (ty := fun _ => .value .noob) (fun v => rfl) (fun v hv => prefixSlice_ok hv) ?_
  refine Covers.search (raw := fun v => v.1) (ty := fun v => .keyword v.2) (fun v => rfl)
    (fun v hv => parseKeyword_ok hv) ?_
  refine Covers.search (raw := fun v => v.1) (ty := fun v => .value (.number v.2)) (fun v => rfl)
    (fun v hv => parseNumber_ok hv) ?_
  refine Covers.search (raw := fun v => v.1) (ty := fun v => .value (.string v.2)) (fun v => rfl)
    (fun v hv => (string_some hv).1) ?_
  refine Covers.search (raw := id) (ty := fun v => .identifier v) (fun v => rfl) (fun v hv => (ident_some hv).1) ?_
  exact Covers.bind fun v hv => Covers.made (sliceTo_ok hv).1

theorem tokenizeLoopCounted_ge (n : Nat) : ∀ {code : Str} {pos r},
    tokenizeLoop n code pos = .ok r → code.length ≤ (tokenizeLoopCounted n code pos).count := by
  induction n with
  | zero => intro code pos r h; cases h
  | succ n ih =>
    intro code pos r h
    by_cases hne : code = []
    · subst hne
      exact Nat.zero_le _
    · rw [tokenizeLoopCounted_count n hne]
      have hc := lexStepCounted_covers code pos
      unfold Covers at hc
      rw [lexStepCounted_result] at hc
      rw [tokenizeLoop, if_pos (utf8Len_pos hne)] at h
      cases hs : lexStep code pos with
      | panic p => rw [hs] at h; cases h
      | outOfFuel => rw [hs] at h; cases h
      | ok s =>
        rw [hs] at hc h
        cases s with
        | fail e => exact hc
        | skip code' pos' =>
          dsimp only at hc h ⊢
          have := ih h
          omega
        | tok t code' pos' =>
          dsimp only at hc h ⊢
          have : code'.length ≤ (tokenizeLoopCounted n code' pos').count := by
            cases hl : tokenizeLoop n code' pos' with
            | ok r => exact ih hl
            | panic p => rw [hl] at h; cases h
            | outOfFuel => rw [hl] at h; cases h
          omega

/-! ## Digits that are no number -/

theorem count_look_le {β γ : Type} {n : Nat} {o : Out β} {f : β → Counted γ} : n ≤ (look n o >>= f).count := by
  cases o with
  | ok v => exact Nat.le_add_right _ _
  | panic p => exact Nat.le_refl n
  | outOfFuel => exact Nat.le_refl n

theorem count_look_ok {β γ : Type} {m n : Nat} {v : β} {f : β → Counted γ} (h : m ≤ (f v).count) :
    m ≤ (look n (.ok v) >>= f).count :=
  Nat.le_trans h (Nat.le_add_left _ _)

/-- A round that starts at a digit looks at all that might be the number. -/
theorem lexStepCounted_digit {c : Char} {s : Str} (hc : IsDigit c) (pos : Position) :
    numberLooks (c :: s) ≤ (lexStepCounted (c :: s) pos).count := by
  obtain ⟨f1, f2, f3, f4, f5, f6, f7⟩ := numHead_facts (.inl hc)
  have hw : parseWhitespace (c :: s) pos = (0, pos) :=
    parseWhitespace_eq [] (c :: s) pos (by simp [WsOnly]) (by intro d s h; simp at h; rw [← h.1]; exact f1)
  have e1 : ¬ ([','].isPrefixOf (c :: s) = true) := by simp [List.isPrefixOf, Ne.symm f3]
  have e2 : ¬ (['!'].isPrefixOf (c :: s) = true) := by simp [List.isPrefixOf, Ne.symm f4]
  have hk := fun k => keyword_not_prefix (c := c) (r := s) f2 k
  have hd := hc.not_sign
  unfold lexStepCounted
  rw [hw]
  refine count_look_ok ?_
  dsimp only
  rw [if_neg (by omega), if_neg e1, if_neg e2, if_neg e1, parseSingleLineComment_no (hk .BTW)]
  refine count_look_ok ?_
  rw [parseMultiLineComment_no (hk .OBTW)]
  refine count_look_ok ?_
  have e3 : parseBukkitSlotAccess (c :: s) = .ok none := prefixSlice_no (not_prefix_head (Ne.symm f5))
  rw [e3]
  refine count_look_ok ?_
  rw [parseEllipsis_no (not_prefix_head (Ne.symm hd.2.2)) f6]
  refine count_look_ok ?_
  rw [parseBoolean_no (hk .WIN) (hk .FAIL)]
  refine count_look_ok ?_
  have e8 : parseNoob (c :: s) = .ok none := prefixSlice_no (hk .NOOB)
  rw [e8]
  refine count_look_ok ?_
  rw [parseKeyword_no hk]
  refine count_look_ok ?_
  exact count_look_le

theorem lexeme_digits {c : Char} {s : Str} (h : ∀ d ∈ c :: s, IsDigit d) : Lexeme [c] s (.symbol [c]) := by
  obtain ⟨f1, f2, f3, f4, f5, f6, f7⟩ := numHead_facts (.inl (h c (by simp)))
  have hd := (h c (by simp)).not_sign
  refine .symbol c s (h c (by simp)).ascii f1 f2 f3 f4 f7 (not_prefix_head (Ne.symm f5))
    (not_prefix_head (Ne.symm hd.2.2)) ?_
  intro lex r n he hn
  have h1 := parseNumber_complete hn
  rw [← he] at h1
  have h2 := parseNumber_eof (sgn := []) (.inl rfl) h
  rw [List.nil_append] at h2
  rw [h2] at h1
  cases h1

theorem tokenizeLoopCounted_digits (n : Nat) : ∀ {code : Str} (pos : Position), code.length < n →
    (∀ d ∈ code, IsDigit d) → code.length * (code.length + 1) ≤ 2 * (tokenizeLoopCounted n code pos).count := by
  induction n with
  | zero => intro code pos hl; omega
  | succ n ih =>
    intro code pos hl h
    cases code with
    | nil => exact Nat.zero_le _
    | cons c s =>
      rw [tokenizeLoopCounted_count n (by simp)]
      have h1 := lexStep_lexeme (lexeme_digits h) pos
      rw [List.singleton_append] at h1
      have h2 := lexStepCounted_digit (s := s) (h c (by simp)) pos
      have h3 : numLooks 0 false (c :: s) = (c :: s).length := by
        have := numLooks_digits 0 false (c :: s) [] h
        rw [List.append_nil] at this
        rw [this]
        rfl
      have h4 : (c :: s).length ≤ numberLooks (c :: s) := by
        unfold numberLooks
        omega
      rw [h1]
      dsimp only
      simp only [List.length_cons] at hl h4 ⊢
      have h5 := ih (code := s) (pos.afterLexeme [c]) (by omega) (fun d hd => h d (by simp [hd]))
      have h6 : (s.length + 1) * (s.length + 1 + 1) = s.length * (s.length + 1) + 2 * (s.length + 1) := by
        rw [Nat.mul_comm (s.length + 1) (s.length + 1 + 1), Nat.add_mul _ _ (s.length + 1), Nat.add_mul _ _ (s.length + 1)]
        omega
      omega

theorem scan_digits {s : Str} (h : ∀ d ∈ s, IsDigit d) (pos : Position) :
    ∃ ts, run s pos = .ok (.ok ts) ∧ ts.length = s.length := by
  induction s generalizing pos with
  | nil => exact ⟨[], run_nil pos, rfl⟩
  | cons c s ih =>
    obtain ⟨ts, h1, h2⟩ := ih (fun d hd => h d (by simp [hd])) (pos.afterLexeme [c])
    have h3 := run_lexeme (lexeme_digits h) pos
    rw [List.singleton_append, h1] at h3
    exact ⟨_, h3, by simp [h2]⟩

end Lol
