import Verif.Lexer.Number
import Verif.Lexer.StringLit

/-! # Helper lemmas: one round of the tokenizer loop against the specification -/

namespace Lol

/-! ## Keywords -/

theorem Keyword.text_eq (k : Keyword) : k.text = k.spelling := by cases k <;> rfl

theorem Keyword.mem_all (k : Keyword) : k ∈ Keyword.all := by cases k <;> decide

/-- `Keyword.all` lists the keywords in declaration order. -/
theorem Keyword.mem_before {k j : Keyword} {before after : List Keyword} (h : Keyword.all = before ++ k :: after) :
    j ∈ before ↔ j.ctorIdx < k.ctorIdx := by
  have hs : Keyword.all.Pairwise (fun a b => a.ctorIdx < b.ctorIdx) := by decide
  rw [h, List.pairwise_append, List.pairwise_cons] at hs
  obtain ⟨_, ⟨h1, _⟩, h2⟩ := hs
  constructor
  · intro hj
    exact h2 j hj k List.mem_cons_self
  · intro hj
    have hm := j.mem_all
    rw [h, List.mem_append, List.mem_cons] at hm
    rcases hm with hm | rfl | hm
    · exact hm
    · omega
    · have := h1 j hm
      omega

theorem Keyword.spelling_ascii (k : Keyword) : ∀ c ∈ k.spelling, IsAscii c := by cases k <;> decide

theorem Keyword.spelling_head (k : Keyword) : ∃ c r, k.spelling = c :: r ∧ 'A' ≤ c ∧ c ≤ 'Z' := by
  cases k <;> exact ⟨_, _, rfl, by decide, by decide⟩

/-- Keyword texts compared as prefixes of each other. -/
def Keyword.comparable (j k : Keyword) : Bool := j.spelling.isPrefixOf k.spelling || k.spelling.isPrefixOf j.spelling

theorem Keyword.comparable_of {j k : Keyword} {s : Str} (hj : j.spelling <+: s) (hk : k.spelling <+: s) :
    j.comparable k = true := by
  unfold Keyword.comparable
  rcases List.prefix_or_prefix_of_prefix hj hk with h | h
  · simp [isPrefixOf_iff.2 h]
  · simp [isPrefixOf_iff.2 h]

theorem Keyword.lone (j k : Keyword) (hj : j = .BTW ∨ j = .OBTW ∨ j = .WIN ∨ j = .FAIL ∨ j = .NOOB)
    (h : j.comparable k = true) : k = j := by
  revert h
  rcases hj with rfl | rfl | rfl | rfl | rfl <;> cases k <;> decide

/-! ## The simple parsers -/

theorem prefixSlice_yes (pat rest : Str) (n : Nat) (h : utf8Len pat = n) :
    prefixSlice pat n (pat ++ rest) = .ok (some pat) := by
  have h1 : pat.isPrefixOf (pat ++ rest) = true := isPrefixOf_iff.2 ⟨rest, rfl⟩
  have h2 : sliceTo (pat ++ rest) n = .ok pat := sliceTo_of rfl h
  simp [prefixSlice, h1, h2]

theorem prefixSlice_no {pat code : Str} {n : Nat} (h : ¬ pat <+: code) :
    prefixSlice pat n code = .ok none := by
  have : ¬ pat.isPrefixOf code = true := fun hp => h (isPrefixOf_iff.1 hp)
  simp [prefixSlice, this]

theorem parseSingleLineComment_no {code : Str} (h : ¬ chars!"BTW" <+: code) :
    parseSingleLineComment code = .ok none := by
  have : ¬ Keyword.BTW.text.isPrefixOf code = true := fun hp => h (isPrefixOf_iff.1 hp)
  unfold parseSingleLineComment
  rw [if_neg this]

theorem parseSingleLineComment_yes {body rest : Str} (h : '\n' ∉ body)
    (hr : rest = [] ∨ ∃ r, rest = '\n' :: r) :
    parseSingleLineComment (chars!"BTW" ++ body ++ rest) = .ok (some (chars!"BTW" ++ body, body)) := by
  have h1 : Keyword.BTW.text.isPrefixOf (chars!"BTW" ++ body ++ rest) = true :=
    isPrefixOf_iff.2 ⟨body ++ rest, by rw [List.append_assoc]; rfl⟩
  have hb : '\n' ∉ chars!"BTW" ++ body := by
    simp only [List.mem_append, not_or]; exact ⟨by decide, h⟩
  have h2 : (findSub ['\n'] (chars!"BTW" ++ body ++ rest)).getD (utf8Len (chars!"BTW" ++ body ++ rest))
      = utf8Len (chars!"BTW" ++ body) := by
    cases hf : findSub ['\n'] (chars!"BTW" ++ body ++ rest) with
    | none =>
      have hn := findSub_none hf
      rcases hr with rfl | ⟨r, rfl⟩
      · simp
      · exact absurd rfl (hn (chars!"BTW" ++ body) r)
    | some n =>
      obtain ⟨u, v, he, hu, hmin⟩ := findSub_some hf
      have hmem : '\n' ∈ chars!"BTW" ++ body ++ rest := by rw [he]; simp
      rcases hr with rfl | ⟨r, rfl⟩
      · rw [List.append_nil] at hmem; exact absurd hmem hb
      · have hle := hmin (chars!"BTW" ++ body) r rfl
        have : u = chars!"BTW" ++ body := by
          rcases List.append_eq_append_iff.1 he with ⟨t, ht, _⟩ | ⟨t, ht, ht2⟩
          · rw [ht] at hle
            have : t = [] := by
              cases t with
              | nil => rfl
              | cons _ _ => simp at hle; omega
            rw [ht, this, List.append_nil]
          · cases t with
            | nil => rw [ht, List.append_nil]
            | cons x t =>
              simp at ht2
              exfalso; apply hb; rw [ht, ← ht2.1]; simp
        simp [← hu, this]
  have h3 : slice (chars!"BTW" ++ body ++ rest) (utf8Len Keyword.BTW.text)
      (utf8Len (chars!"BTW" ++ body)) = .ok body := slice_of rfl rfl rfl
  have h4 : sliceTo (chars!"BTW" ++ body ++ rest) (utf8Len (chars!"BTW" ++ body)) =
      .ok (chars!"BTW" ++ body) := sliceTo_append _ _
  unfold parseSingleLineComment
  rw [if_pos h1]
  simp only [h2, h3, h4]

/-- Text up to the first newline. -/
theorem exists_line (s : Str) : ∃ body rest, s = body ++ rest ∧ '\n' ∉ body ∧
    (rest = [] ∨ ∃ r, rest = '\n' :: r) := by
  induction s with
  | nil => exact ⟨[], [], by simp⟩
  | cons c s ih =>
    by_cases hc : c = '\n'
    · exact ⟨[], c :: s, by simp [hc]⟩
    · obtain ⟨b, r, h1, h2, h3⟩ := ih
      exact ⟨c :: b, r, by simp [h1], by simp [h2, Ne.symm hc], h3⟩

theorem parseMultiLineComment_no {code : Str} (h : ¬ chars!"OBTW" <+: code) :
    parseMultiLineComment code = .ok (.ok none) := by
  have : ¬ Keyword.OBTW.text.isPrefixOf code = true := fun hp => h (isPrefixOf_iff.1 hp)
  unfold parseMultiLineComment
  rw [if_neg this]

/-- `OBTW` and `TLDR` cannot overlap, so the first `TLDR` lies after the `OBTW`. -/
theorem tldr_after_obtw {r u v : Str} (h : chars!"OBTW" ++ r = u ++ (chars!"TLDR" ++ v)) :
    ∃ b, u = chars!"OBTW" ++ b ∧ r = b ++ (chars!"TLDR" ++ v) := by
  rcases u with _ | ⟨a, _ | ⟨b, _ | ⟨c, _ | ⟨d, u⟩⟩⟩⟩
  · simp at h
  · simp at h
  · simp at h
  · simp at h
  · simp at h
    obtain ⟨rfl, rfl, rfl, rfl, h⟩ := h
    exact ⟨u, by simp, by simpa using h⟩

theorem parseMultiLineComment_unclosed {code : Str} (h : Unclosed code) :
    parseMultiLineComment code = .ok (.error ()) := by
  have h1 : Keyword.OBTW.text.isPrefixOf code = true := isPrefixOf_iff.2 h.1
  have h2 : findSub Keyword.TLDR.text code = none := by
    cases hf : findSub Keyword.TLDR.text code with
    | none => rfl
    | some n =>
      obtain ⟨u, v, he, _⟩ := findSub_some hf
      exact absurd he (h.2 u v)
  unfold parseMultiLineComment
  rw [if_pos h1, h2]

theorem parseMultiLineComment_yes {body rest : Str}
    (h : ∀ u v, body ++ (chars!"TLDR" ++ rest) = u ++ (chars!"TLDR" ++ v) → body.length ≤ u.length) :
    parseMultiLineComment (chars!"OBTW" ++ body ++ chars!"TLDR" ++ rest) =
      .ok (.ok (some (chars!"OBTW" ++ body ++ chars!"TLDR", body))) := by
  have he : chars!"OBTW" ++ body ++ chars!"TLDR" ++ rest =
    chars!"OBTW" ++ (body ++ (chars!"TLDR" ++ rest)) := by simp only [List.append_assoc]
  have h1 : Keyword.OBTW.text.isPrefixOf (chars!"OBTW" ++ body ++ chars!"TLDR" ++ rest) = true :=
    isPrefixOf_iff.2 ⟨body ++ (chars!"TLDR" ++ rest), he.symm⟩
  have h2 : findSub Keyword.TLDR.text (chars!"OBTW" ++ body ++ chars!"TLDR" ++ rest) =
      some (utf8Len (chars!"OBTW" ++ body)) := by
    cases hf : findSub Keyword.TLDR.text (chars!"OBTW" ++ body ++ chars!"TLDR" ++ rest) with
    | none =>
      exact absurd (by rw [List.append_assoc]; rfl) (findSub_none hf (chars!"OBTW" ++ body) rest)
    | some n =>
      obtain ⟨u, v, hu, hn, hmin⟩ := findSub_some hf
      rw [he] at hu
      obtain ⟨b, rfl, hb⟩ := tldr_after_obtw hu
      have hle1 := h b v hb
      have hle2 := hmin (chars!"OBTW" ++ body) rest (by rw [List.append_assoc]; rfl)
      have hlen : body.length = b.length := by simp at hle2; omega
      rw [(List.append_inj hb hlen).1, hn]
  have h3 : slice (chars!"OBTW" ++ body ++ chars!"TLDR" ++ rest) (utf8Len Keyword.OBTW.text)
      (utf8Len (chars!"OBTW" ++ body)) = .ok body :=
    slice_of (a := chars!"OBTW") (c := chars!"TLDR" ++ rest) (by rw [List.append_assoc]) rfl rfl
  have h4 : sliceTo (chars!"OBTW" ++ body ++ chars!"TLDR" ++ rest)
      (utf8Len (chars!"OBTW" ++ body) + utf8Len Keyword.TLDR.text) =
      .ok (chars!"OBTW" ++ body ++ chars!"TLDR") := by
    apply sliceTo_of rfl
    rw [utf8Len_append (chars!"OBTW" ++ body)]; rfl
  unfold parseMultiLineComment
  rw [if_pos h1, h2]
  simp only [h3, h4]

/-- Text up to the first `TLDR`. -/
theorem exists_tldr (s : Str) : (∃ body rest, s = body ++ (chars!"TLDR" ++ rest) ∧
      ∀ u v, s = u ++ (chars!"TLDR" ++ v) → body.length ≤ u.length) ∨
    ∀ u v, s ≠ u ++ (chars!"TLDR" ++ v) := by
  cases hf : findSub chars!"TLDR" s with
  | none => exact .inr (findSub_none hf)
  | some n =>
    obtain ⟨u, v, he, _, hmin⟩ := findSub_some hf
    exact .inl ⟨u, v, he, hmin⟩

theorem parseEllipsis_yes (rest : Str) : parseEllipsis (chars!"..." ++ rest) = .ok (some chars!"...") := by
  have h1 : chars!"...".isPrefixOf (chars!"..." ++ rest) = true := isPrefixOf_iff.2 ⟨rest, rfl⟩
  unfold parseEllipsis
  rw [if_pos h1]
  exact prefixSlice_yes _ _ _ (by decide)

theorem parseEllipsis_no {c : Char} {r : Str} (h : ¬ chars!"..." <+: c :: r) (h' : c ≠ '…') :
    parseEllipsis (c :: r) = .ok none := by
  have h1 : ¬ chars!"...".isPrefixOf (c :: r) = true := fun hp => h (isPrefixOf_iff.1 hp)
  unfold parseEllipsis
  rw [if_neg h1]
  apply prefixSlice_no
  intro hp
  have := (List.cons_prefix_cons.1 hp).1
  exact h' this.symm

theorem parseEllipsis_panic (r : Str) : parseEllipsis ('…' :: r) = .panic .strSlice := by
  have h1 : ¬ chars!"...".isPrefixOf ('…' :: r) = true := by
    intro hp
    exact absurd (List.cons_prefix_cons.1 (isPrefixOf_iff.1 hp)).1 (by decide)
  have h2 : chars!"…".isPrefixOf ('…' :: r) = true := isPrefixOf_iff.2 ⟨r, rfl⟩
  have e : ¬ ('…'.utf8Size ≤ 0 + 1) := by decide
  have h3 : sliceTo ('…' :: r) 1 = .panic .strSlice := by
    simp only [sliceTo, splitAtByte]
    rw [if_neg e]
  unfold parseEllipsis prefixSlice
  rw [if_neg h1, if_pos h2, h3]

theorem parseBoolean_win (rest : Str) :
    parseBoolean (chars!"WIN" ++ rest) = .ok (some (chars!"WIN", true)) := by
  have : prefixSlice Keyword.WIN.text (utf8Len Keyword.WIN.text) (chars!"WIN" ++ rest) =
      .ok (some chars!"WIN") := prefixSlice_yes _ _ _ rfl
  unfold parseBoolean
  rw [this]

theorem parseBoolean_fail (rest : Str) :
    parseBoolean (chars!"FAIL" ++ rest) = .ok (some (chars!"FAIL", false)) := by
  have h1 : prefixSlice Keyword.WIN.text (utf8Len Keyword.WIN.text) (chars!"FAIL" ++ rest) =
      .ok none := by
    apply prefixSlice_no
    intro hp
    exact absurd (List.cons_prefix_cons.1 hp).1 (by decide)
  have : prefixSlice Keyword.FAIL.text (utf8Len Keyword.FAIL.text) (chars!"FAIL" ++ rest) =
      .ok (some chars!"FAIL") := prefixSlice_yes _ _ _ rfl
  unfold parseBoolean
  rw [h1, this]

theorem parseBoolean_no {code : Str} (h1 : ¬ chars!"WIN" <+: code) (h2 : ¬ chars!"FAIL" <+: code) :
    parseBoolean code = .ok none := by
  unfold parseBoolean
  rw [show prefixSlice Keyword.WIN.text (utf8Len Keyword.WIN.text) code = .ok none from
    prefixSlice_no h1, show prefixSlice Keyword.FAIL.text (utf8Len Keyword.FAIL.text) code = .ok none
    from prefixSlice_no h2]

theorem parseKeyword_yes {k : Keyword} {rest : Str}
    (hb : ∀ j : Keyword, j.ctorIdx < k.ctorIdx → ¬ j.spelling <+: k.spelling ++ rest) :
    parseKeyword (k.spelling ++ rest) = .ok (some (k.spelling, k)) := by
  obtain ⟨before, after, h⟩ := List.append_of_mem k.mem_all
  have hf : Keyword.all.find? (fun j => j.text.isPrefixOf (k.spelling ++ rest)) = some k := by
    rw [List.find?_eq_some_iff_append]
    refine ⟨isPrefixOf_iff.2 ⟨rest, by rw [k.text_eq]⟩, before, after, h, ?_⟩
    intro j hj
    have := hb j ((Keyword.mem_before h).1 hj)
    rw [← isPrefixOf_iff] at this
    rw [Bool.not_eq_true] at this
    rw [j.text_eq, this]; rfl
  have hs : sliceTo (k.spelling ++ rest) (utf8Len k.text) = .ok k.spelling := by
    rw [k.text_eq]; exact sliceTo_append _ _
  unfold parseKeyword
  rw [hf]
  simp only [hs]

theorem parseKeyword_no {code : Str} (h : ∀ k : Keyword, ¬ k.spelling <+: code) :
    parseKeyword code = .ok none := by
  have hf : Keyword.all.find? (fun j => j.text.isPrefixOf code) = none := by
    rw [List.find?_eq_none]
    intro k _ hk
    rw [k.text_eq] at hk
    exact h k (isPrefixOf_iff.1 hk)
  unfold parseKeyword
  rw [hf]

theorem keyword_first (code : Str) : (∃ (k : Keyword) (rest : Str), code = k.spelling ++ rest ∧
      ∀ j : Keyword, j.ctorIdx < k.ctorIdx → ¬ j.spelling <+: code) ∨
    ∀ k : Keyword, ¬ k.spelling <+: code := by
  cases hf : Keyword.all.find? (fun j => j.spelling.isPrefixOf code) with
  | none =>
    right
    intro k hk
    rw [List.find?_eq_none] at hf
    exact hf k k.mem_all (isPrefixOf_iff.2 hk)
  | some k =>
    left
    rw [List.find?_eq_some_iff_append] at hf
    obtain ⟨hp, before, after, h1, h2⟩ := hf
    obtain ⟨rest, hr⟩ := isPrefixOf_iff.1 hp
    refine ⟨k, rest, hr.symm, ?_⟩
    intro j hj hjp
    have := h2 j ((Keyword.mem_before h1).2 hj)
    rw [isPrefixOf_iff.2 hjp] at this
    simp at this


theorem isIdentChar_iff {c : Char} : isIdentChar c = true ↔ IsIdent c := by
  simp [isIdentChar, IsIdent, or_assoc]

theorem IsIdent.ascii {c : Char} (h : IsIdent c) : IsAscii c := by
  unfold IsAscii
  rcases h with rfl | ⟨_, h⟩ | ⟨_, h⟩
  · decide
  · have : c.toNat ≤ 'z'.toNat := h
    have : 'z'.toNat = 122 := rfl
    omega
  · have : c.toNat ≤ 'Z'.toNat := h
    have : 'Z'.toNat = 90 := rfl
    omega

theorem parseIdentifier_yes {name rest : Str} (hne : name ≠ []) (h : ∀ c ∈ name, IsIdent c)
    (hr : ∀ c r, rest = c :: r → ¬ IsIdent c) : parseIdentifier (name ++ rest) = .ok (some name) := by
  have htw : (name ++ rest).takeWhile isIdentChar = name := by
    rw [List.takeWhile_append_of_pos (fun c hc => isIdentChar_iff.2 (h c hc))]
    cases rest with
    | nil => simp
    | cons c r =>
      have : ¬ isIdentChar c = true := fun hc => hr c r rfl (isIdentChar_iff.1 hc)
      simp [this]
  have hs : sliceTo (name ++ rest) name.length = .ok name :=
    sliceTo_of rfl (utf8Len_ascii (fun c hc => (h c hc).ascii))
  have hl : name.length ≠ 0 := by simpa using hne
  unfold parseIdentifier
  simp only [htw, if_neg hl, hs]

theorem parseIdentifier_no {c : Char} {r : Str} (h : ¬ IsIdent c) :
    parseIdentifier (c :: r) = .ok none := by
  have : ¬ isIdentChar c = true := fun hc => h (isIdentChar_iff.1 hc)
  simp [parseIdentifier, this]

/-- The longest identifier prefix. -/
theorem exists_ident (s : Str) : ∃ name rest, s = name ++ rest ∧ (∀ c ∈ name, IsIdent c) ∧
    ∀ c r, rest = c :: r → ¬ IsIdent c := by
  induction s with
  | nil => exact ⟨[], [], by simp⟩
  | cons c s ih =>
    by_cases hc : IsIdent c
    · obtain ⟨n, rest, h1, h2, h3⟩ := ih
      refine ⟨c :: n, rest, by simp [h1], ?_, h3⟩
      intro d hd
      rcases List.mem_cons.1 hd with rfl | hd
      · exact hc
      · exact h2 d hd
    · refine ⟨[], c :: s, by simp, by simp, ?_⟩
      intro d r h
      simp at h
      rw [← h.1]; exact hc

/-! ## White space -/

theorem IsWs.size {c : Char} (h : IsWs c) : c.utf8Size = 1 := by
  rcases h with rfl | rfl | rfl <;> decide

theorem parseWhitespace_eq (ws rest : Str) (p : Position) (h : WsOnly ws)
    (hr : ∀ c r, rest = c :: r → ¬ IsWs c) :
    parseWhitespace (ws ++ rest) p = (ws.length, ws.foldl Position.afterWs p) := by
  induction ws generalizing p with
  | nil =>
    cases rest with
    | nil => rfl
    | cons c r =>
      have := hr c r rfl
      unfold IsWs at this
      simp only [not_or] at this
      simp [parseWhitespace, this]
  | cons c ws ih =>
    have hc : IsWs c := h c (by simp)
    have ih' := fun q => ih q (fun d hd => h d (by simp [hd]))
    have hsz := hc.size
    by_cases hn : c = '\n'
    · simp only [List.cons_append, parseWhitespace, if_pos hn, ih', List.foldl_cons, List.length_cons,
        Position.afterWs, hsz]
      rfl
    · have hsp : c = ' ' ∨ c = '\t' := by
        rcases hc with h | h | h
        · exact .inl h
        · exact .inr h
        · exact absurd h hn
      simp only [List.cons_append, parseWhitespace, if_neg hn, if_pos hsp, ih', List.foldl_cons,
        List.length_cons, Position.afterWs, hsz]
      rfl

theorem exists_ws (s : Str) : ∃ ws rest, s = ws ++ rest ∧ WsOnly ws ∧
    ∀ c r, rest = c :: r → ¬ IsWs c := by
  induction s with
  | nil => exact ⟨[], [], by simp [WsOnly]⟩
  | cons c s ih =>
    by_cases hc : IsWs c
    · obtain ⟨n, rest, h1, h2, h3⟩ := ih
      refine ⟨c :: n, rest, by simp [h1], ?_, h3⟩
      intro d hd
      rcases List.mem_cons.1 hd with rfl | hd
      · exact hc
      · exact h2 d hd
    · refine ⟨[], c :: s, by simp, by simp [WsOnly], ?_⟩
      intro d r h
      simp at h
      rw [← h.1]; exact hc

/-! ## One round -/

theorem makeToken_eq (lex rest : Str) (p : Position) (ty : TokenType) :
    makeToken (lex ++ rest) p lex ty =
      .ok (.tok { tokenType := ty, range := { start := p, stop := p.afterLexeme lex } } rest
        (p.afterLexeme lex)) := by
  have h : sliceFrom (lex ++ rest) (utf8Len lex) = .ok rest := sliceFrom_append _ _
  simp [makeToken, h, Position.addAssign, Position.afterLexeme]

theorem lexStep_ws {ws rest : Str} {p : Position} (hne : ws ≠ []) (h : WsOnly ws)
    (hr : ∀ c r, rest = c :: r → ¬ IsWs c) :
    lexStep (ws ++ rest) p = .ok (.skip rest (ws.foldl Position.afterWs p)) := by
  have hs : sliceFrom (ws ++ rest) ws.length = .ok rest :=
    sliceFrom_of rfl (utf8Len_ascii (fun c hc => utf8Size_ascii.1 (h c hc).size))
  have hl : ws.length > 0 := List.length_pos_iff.2 hne
  unfold lexStep
  simp only [parseWhitespace_eq ws rest p h hr, hl, if_true, hs]
  rfl

/-- What `lexStep` does from `parse_keyword` on. -/
def lexTail (code : Str) (pos : Position) : Out Step := do
  match ← parseKeyword code with
  | some (raw, k) => makeToken code pos raw (.keyword k)
  | none =>
  match ← parseNumber code with
  | some (raw, n) => makeToken code pos raw (.value (.number n))
  | none =>
  match ← parseString code with
  | some (raw, s) => makeToken code pos raw (.value (.string s))
  | none =>
  match ← parseIdentifier code with
  | some raw => makeToken code pos raw (.identifier raw)
  | none =>
    let raw ← sliceTo code 1
    makeToken code pos raw (.symbol raw)

/-- What `lexStep` does from the comments on. -/
def lexMid (code : Str) (pos : Position) : Out Step := do
  match ← parseSingleLineComment code with
  | some (raw, comment) => makeToken code pos raw (.commentSingleLine comment)
  | none =>
  match ← parseMultiLineComment code with
  | .ok (some (raw, comment)) => makeToken code pos raw (.commentMultiLine comment)
  | .error _ => return .fail (.unclosedMultilineComment { start := pos, stop := pos.add code })
  | .ok none =>
  match ← parseBukkitSlotAccess code with
  | some raw => makeToken code pos raw .bukkitSlotAccess
  | none =>
  match ← parseEllipsis code with
  | some raw => makeToken code pos raw .ellipsis
  | none =>
  match ← parseBoolean code with
  | some (raw, b) => makeToken code pos raw (.value (.boolean b))
  | none =>
  match ← parseNoob code with
  | some raw => makeToken code pos raw (.value .noob)
  | none => lexTail code pos

theorem lexStep_mid {c : Char} {r : Str} (p : Position) (hws : ¬ IsWs c) (h1 : c ≠ ',')
    (h2 : c ≠ '!') : lexStep (c :: r) p = lexMid (c :: r) p := by
  have hw : parseWhitespace (c :: r) p = (0, p) :=
    parseWhitespace_eq [] (c :: r) p (by simp [WsOnly]) (by intro d s h; simp at h; rw [← h.1]; exact hws)
  have e1 : ¬ ([','].isPrefixOf (c :: r) = true) := by simp [List.isPrefixOf, Ne.symm h1]
  have e2 : ¬ (['!'].isPrefixOf (c :: r) = true) := by simp [List.isPrefixOf, Ne.symm h2]
  unfold lexStep
  simp only [hw, gt_iff_lt, Nat.lt_irrefl, if_false, e1, e2]
  rfl

theorem lexMid_tail {c : Char} {r : Str} (p : Position) (h1 : ¬ chars!"BTW" <+: c :: r)
    (h2 : ¬ chars!"OBTW" <+: c :: r) (h3 : ¬ chars!"'Z" <+: c :: r) (h4 : ¬ chars!"..." <+: c :: r)
    (h5 : c ≠ '…') (h6 : ¬ chars!"WIN" <+: c :: r) (h7 : ¬ chars!"FAIL" <+: c :: r)
    (h8 : ¬ chars!"NOOB" <+: c :: r) : lexMid (c :: r) p = lexTail (c :: r) p := by
  have e3 : parseBukkitSlotAccess (c :: r) = .ok none := prefixSlice_no h3
  have e8 : parseNoob (c :: r) = .ok none := prefixSlice_no h8
  unfold lexMid
  simp only [parseSingleLineComment_no h1, parseMultiLineComment_no h2, e3, parseEllipsis_no h4 h5,
    parseBoolean_no h6 h7, e8, Out.bind_ok]

theorem not_prefix_head {pat : Str} {a c : Char} {r : Str} (h : a ≠ c) : ¬ a :: pat <+: c :: r := by
  intro hp
  exact h (List.cons_prefix_cons.1 hp).1

theorem lexStep_tail_of_ident {c : Char} {r : Str} (p : Position) (hc : IsIdent c)
    (h : ∀ j : Keyword, j.spelling <+: c :: r → ¬ (j = .BTW ∨ j = .OBTW ∨ j = .WIN ∨ j = .FAIL ∨ j = .NOOB)) :
    lexStep (c :: r) p = lexTail (c :: r) p := by
  have hne : ∀ d : Char, ¬ IsIdent d → c ≠ d := fun d hd he => hd (he ▸ hc)
  have hws : ¬ IsWs c := by
    rintro (h | h | h) <;> exact hne _ (by decide) h
  rw [lexStep_mid p hws (hne _ (by decide)) (hne _ (by decide))]
  refine lexMid_tail p ?_ ?_ ?_ ?_ ?_ ?_ ?_ ?_
  · intro hp; exact h .BTW hp (by simp)
  · intro hp; exact h .OBTW hp (by simp)
  · exact not_prefix_head (hne _ (by decide)).symm
  · exact not_prefix_head (hne _ (by decide)).symm
  · exact hne _ (by decide)
  · intro hp; exact h .WIN hp (by simp)
  · intro hp; exact h .FAIL hp (by simp)
  · intro hp; exact h .NOOB hp (by simp)

theorem keyword_not_prefix {c : Char} {r : Str} (h : ¬ IsIdent c) (k : Keyword) :
    ¬ k.spelling <+: c :: r := by
  obtain ⟨d, t, ht, h1, h2⟩ := k.spelling_head
  rw [ht]
  exact not_prefix_head (fun he => h (he ▸ .inr (.inr ⟨h1, h2⟩)))

theorem lexStep_tail_of_other {c : Char} {r : Str} (p : Position) (hws : ¬ IsWs c) (hc : ¬ IsIdent c)
    (h1 : c ≠ ',') (h2 : c ≠ '!') (h3 : ¬ chars!"'Z" <+: c :: r) (h4 : ¬ chars!"..." <+: c :: r)
    (h5 : c ≠ '…') : lexStep (c :: r) p = lexTail (c :: r) p := by
  rw [lexStep_mid p hws h1 h2]
  exact lexMid_tail p (keyword_not_prefix hc .BTW) (keyword_not_prefix hc .OBTW) h3 h4 h5
    (keyword_not_prefix hc .WIN) (keyword_not_prefix hc .FAIL) (keyword_not_prefix hc .NOOB)

theorem NumberLexeme.head {lex rest : Str} {n : NumberToken} (h : NumberLexeme lex rest n) :
    ∃ c r, lex = c :: r ∧ (IsDigit c ∨ c = '+' ∨ c = '-' ∨ c = '.') ∧
      ¬ chars!"..." <+: lex ++ rest := by
  have hdd : ∀ {s t : Str}, (∀ d ∈ s, IsDigit d) → ¬ ['.'] <+: s ++ t → ¬ ['.'] <+: s ++ t := fun _ h => h
  have key : ∀ (c : Char) (t : Str), (c ≠ '.' ∨ ∃ d u, t = d :: u ∧ d ≠ '.') → ¬ chars!"..." <+: c :: t := by
    intro c t h hp
    rcases h with h | ⟨d, u, rfl, hd⟩
    · exact h (List.cons_prefix_cons.1 hp).1.symm
    · exact hd (List.cons_prefix_cons.1 (List.cons_prefix_cons.1 hp).2).1.symm
  cases h with
  | int sgn ds c rest hs hne hds hr hc hdot =>
    rcases hs with rfl | rfl | rfl
    · cases ds with
      | nil => exact absurd rfl hne
      | cons d ds =>
        exact ⟨d, ds, rfl, .inl (hds d (by simp)), key _ _ (.inl (hds d (by simp)).not_sign.2.2)⟩
    · exact ⟨'+', ds, rfl, by simp, key _ _ (.inl (by decide))⟩
    · exact ⟨'-', ds, rfl, by simp, key _ _ (.inl (by decide))⟩
  | float sgn ds es c rest x hs hne hds hes hc hx =>
    rcases hs with rfl | rfl | rfl
    · cases ds with
      | nil =>
        cases es with
        | nil => exact absurd rfl hne
        | cons e es =>
          exact ⟨'.', e :: es, rfl, by simp,
            key _ _ (.inr ⟨e, es ++ c :: rest, by simp, (hes e (by simp)).not_sign.2.2⟩)⟩
      | cons d ds =>
        exact ⟨d, ds ++ '.' :: es, rfl, .inl (hds d (by simp)),
          key _ _ (.inl (hds d (by simp)).not_sign.2.2)⟩
    · exact ⟨'+', ds ++ '.' :: es, rfl, by simp, key _ _ (.inl (by decide))⟩
    · exact ⟨'-', ds ++ '.' :: es, rfl, by simp, key _ _ (.inl (by decide))⟩

theorem numHead_facts {c : Char} (h : IsDigit c ∨ c = '+' ∨ c = '-' ∨ c = '.') :
    ¬ IsWs c ∧ ¬ IsIdent c ∧ c ≠ ',' ∧ c ≠ '!' ∧ c ≠ '\'' ∧ c ≠ '…' ∧ c ≠ '"' := by
  rcases h with h | rfl | rfl | rfl
  · have h1 : 48 ≤ c.toNat := h.1
    have h2 : c.toNat ≤ 57 := h.2
    have hne : ∀ d : Char, (d.toNat < 48 ∨ 57 < d.toNat) → c ≠ d := by
      rintro d hd rfl; omega
    refine ⟨?_, ?_, hne _ (by decide), hne _ (by decide), hne _ (by decide), hne _ (by decide),
      hne _ (by decide)⟩
    · rintro (h | h | h) <;> exact hne _ (by decide) h
    · rintro (h | ⟨h, _⟩ | ⟨h, _⟩)
      · exact hne _ (by decide) h
      · have : 97 ≤ c.toNat := h
        omega
      · have : 65 ≤ c.toNat := h
        omega
  all_goals decide

/-- Completeness of one round: every lexeme of the specification is found. -/
theorem lexStep_lexeme {lex rest : Str} {ty : TokenType} (h : Lexeme lex rest ty) (p : Position) :
    lexStep (lex ++ rest) p =
      .ok (.tok { tokenType := ty, range := { start := p, stop := p.afterLexeme lex } } rest
        (p.afterLexeme lex)) := by
  rw [← makeToken_eq lex rest p ty]
  cases h with
  | comma =>
    have hw : parseWhitespace (',' :: rest) p = (0, p) :=
      parseWhitespace_eq [] (',' :: rest) p (by simp [WsOnly])
        (by intro d s h; simp at h; rw [← h.1]; decide)
    have hs : sliceTo (',' :: rest) 1 = .ok [','] := sliceTo_of (a := [',']) rfl (by decide)
    have e : [','].isPrefixOf (',' :: rest) = true := isPrefixOf_iff.2 ⟨rest, rfl⟩
    unfold lexStep
    simp only [List.cons_append, List.nil_append, hw, gt_iff_lt, Nat.lt_irrefl, if_false, e, if_true, hs,
      Out.bind_ok]
  | bang =>
    have hw : parseWhitespace ('!' :: rest) p = (0, p) :=
      parseWhitespace_eq [] ('!' :: rest) p (by simp [WsOnly])
        (by intro d s h; simp at h; rw [← h.1]; decide)
    have hs : sliceTo ('!' :: rest) 1 = .ok ['!'] := sliceTo_of (a := ['!']) rfl (by decide)
    have e1 : [','].isPrefixOf ('!' :: rest) = false := rfl
    have e : ['!'].isPrefixOf ('!' :: rest) = true := isPrefixOf_iff.2 ⟨rest, rfl⟩
    unfold lexStep
    simp only [List.cons_append, List.nil_append, hw, gt_iff_lt, Nat.lt_irrefl, if_false, e1, e, if_true,
      hs, Out.bind_ok, Bool.false_eq_true]
  | btw body rest h1 h2 =>
    have hm := lexStep_mid (c := 'B') (r := chars!"TW" ++ body ++ rest) p (by decide) (by decide) (by decide)
    rw [show chars!"BTW" ++ body ++ rest = 'B' :: (chars!"TW" ++ body ++ rest) from rfl] at *
    rw [hm]
    have hc := parseSingleLineComment_yes h1 h2
    rw [show chars!"BTW" ++ body ++ rest = 'B' :: (chars!"TW" ++ body ++ rest) from rfl] at hc
    unfold lexMid
    simp only [hc, Out.bind_ok]
  | obtw body rest h =>
    have hm := lexStep_mid (c := 'O') (r := chars!"BTW" ++ body ++ chars!"TLDR" ++ rest) p (by decide)
      (by decide) (by decide)
    have hc := parseMultiLineComment_yes h
    have hc0 : parseSingleLineComment (chars!"OBTW" ++ body ++ chars!"TLDR" ++ rest) = .ok none :=
      parseSingleLineComment_no (not_prefix_head (by decide))
    refine Eq.trans hm ?_
    unfold lexMid
    rw [show ('O' :: (chars!"BTW" ++ body ++ chars!"TLDR" ++ rest)) =
      chars!"OBTW" ++ body ++ chars!"TLDR" ++ rest from rfl]
    simp only [hc, hc0, Out.bind_ok]
  | slot =>
    have hm := lexStep_mid (c := '\'') (r := 'Z' :: rest) p (by decide) (by decide) (by decide)
    have hk := fun k => keyword_not_prefix (c := '\'') (r := 'Z' :: rest) (by decide) k
    have e3 : parseBukkitSlotAccess ('\'' :: 'Z' :: rest) = .ok (some chars!"'Z") :=
      prefixSlice_yes _ _ _ (by decide)
    refine Eq.trans hm ?_
    unfold lexMid
    simp only [parseSingleLineComment_no (hk .BTW), parseMultiLineComment_no (hk .OBTW), e3, Out.bind_ok]
    rfl
  | ellipsis =>
    have hm := lexStep_mid (c := '.') (r := '.' :: '.' :: rest) p (by decide) (by decide) (by decide)
    have hk := fun k => keyword_not_prefix (c := '.') (r := '.' :: '.' :: rest) (by decide) k
    have e3 : parseBukkitSlotAccess ('.' :: '.' :: '.' :: rest) = .ok none :=
      prefixSlice_no (not_prefix_head (by decide))
    have e4 : parseEllipsis ('.' :: '.' :: '.' :: rest) = .ok (some chars!"...") := parseEllipsis_yes rest
    refine Eq.trans hm ?_
    unfold lexMid
    simp only [parseSingleLineComment_no (hk .BTW), parseMultiLineComment_no (hk .OBTW), e3, e4,
      Out.bind_ok]
    rfl
  | win =>
    have hm := lexStep_mid (c := 'W') (r := 'I' :: 'N' :: rest) p (by decide) (by decide) (by decide)
    have h1 : parseSingleLineComment ('W' :: 'I' :: 'N' :: rest) = .ok none :=
      parseSingleLineComment_no (not_prefix_head (by decide))
    have h2 : parseMultiLineComment ('W' :: 'I' :: 'N' :: rest) = .ok (.ok none) :=
      parseMultiLineComment_no (not_prefix_head (by decide))
    have h3 : parseBukkitSlotAccess ('W' :: 'I' :: 'N' :: rest) = .ok none :=
      prefixSlice_no (not_prefix_head (by decide))
    have h4 : parseEllipsis ('W' :: 'I' :: 'N' :: rest) = .ok none :=
      parseEllipsis_no (not_prefix_head (by decide)) (by decide)
    have h5 : parseBoolean ('W' :: 'I' :: 'N' :: rest) = .ok (some (chars!"WIN", true)) :=
      parseBoolean_win rest
    refine Eq.trans hm ?_
    unfold lexMid
    simp only [h1, h2, h3, h4, h5, Out.bind_ok]
    rfl
  | fail =>
    have hm := lexStep_mid (c := 'F') (r := chars!"AIL" ++ rest) p (by decide) (by decide) (by decide)
    have h1 : parseSingleLineComment ('F' :: (chars!"AIL" ++ rest)) = .ok none :=
      parseSingleLineComment_no (not_prefix_head (by decide))
    have h2 : parseMultiLineComment ('F' :: (chars!"AIL" ++ rest)) = .ok (.ok none) :=
      parseMultiLineComment_no (not_prefix_head (by decide))
    have h3 : parseBukkitSlotAccess ('F' :: (chars!"AIL" ++ rest)) = .ok none :=
      prefixSlice_no (not_prefix_head (by decide))
    have h4 : parseEllipsis ('F' :: (chars!"AIL" ++ rest)) = .ok none :=
      parseEllipsis_no (not_prefix_head (by decide)) (by decide)
    have h5 : parseBoolean ('F' :: (chars!"AIL" ++ rest)) = .ok (some (chars!"FAIL", false)) :=
      parseBoolean_fail rest
    refine Eq.trans hm ?_
    unfold lexMid
    simp only [h1, h2, h3, h4, h5, Out.bind_ok]
    rfl
  | noob =>
    have hm := lexStep_mid (c := 'N') (r := chars!"OOB" ++ rest) p (by decide) (by decide) (by decide)
    have h1 : parseSingleLineComment ('N' :: (chars!"OOB" ++ rest)) = .ok none :=
      parseSingleLineComment_no (not_prefix_head (by decide))
    have h2 : parseMultiLineComment ('N' :: (chars!"OOB" ++ rest)) = .ok (.ok none) :=
      parseMultiLineComment_no (not_prefix_head (by decide))
    have h3 : parseBukkitSlotAccess ('N' :: (chars!"OOB" ++ rest)) = .ok none :=
      prefixSlice_no (not_prefix_head (by decide))
    have h4 : parseEllipsis ('N' :: (chars!"OOB" ++ rest)) = .ok none :=
      parseEllipsis_no (not_prefix_head (by decide)) (by decide)
    have h5 : parseBoolean ('N' :: (chars!"OOB" ++ rest)) = .ok none :=
      parseBoolean_no (not_prefix_head (by decide)) (not_prefix_head (by decide))
    have h6 : parseNoob ('N' :: (chars!"OOB" ++ rest)) = .ok (some chars!"NOOB") :=
      prefixSlice_yes _ _ _ rfl
    refine Eq.trans hm ?_
    unfold lexMid
    simp only [h1, h2, h3, h4, h5, h6, Out.bind_ok]
    rfl
  | keyword k rest h2 n1 n2 n3 n4 n5 =>
    obtain ⟨c, r, ht, hc1, hc2⟩ := k.spelling_head
    have hk := parseKeyword_yes h2
    have hx : lexStep (k.spelling ++ rest) p = lexTail (k.spelling ++ rest) p := by
      have hpre : k.spelling <+: k.spelling ++ rest := ⟨rest, rfl⟩
      have hlone : ∀ j : Keyword, j.spelling <+: k.spelling ++ rest →
          ¬ (j = .BTW ∨ j = .OBTW ∨ j = .WIN ∨ j = .FAIL ∨ j = .NOOB) := by
        intro j hj hjs
        have := Keyword.lone j k hjs (Keyword.comparable_of hj hpre)
        subst this
        simp [n1, n2, n3, n4, n5] at hjs
      rw [ht] at hlone ⊢
      exact lexStep_tail_of_ident p (.inr (.inr ⟨hc1, hc2⟩)) hlone
    rw [hx]
    unfold lexTail
    simp only [hk, Out.bind_ok]
  | number lex rest n h =>
    obtain ⟨c, r, hl, hh, hdots⟩ := h.head
    have hf := numHead_facts hh
    have hn := parseNumber_complete h
    have hx : lexStep (lex ++ rest) p = lexTail (lex ++ rest) p := by
      rw [hl] at hdots ⊢
      exact lexStep_tail_of_other p hf.1 hf.2.1 hf.2.2.1 hf.2.2.2.1
        (not_prefix_head (Ne.symm hf.2.2.2.2.1)) hdots hf.2.2.2.2.2.1
    have hk : parseKeyword (lex ++ rest) = .ok none := by
      rw [hl]
      exact parseKeyword_no (fun k => keyword_not_prefix hf.2.1 k)
    rw [hx]
    unfold lexTail
    simp only [hk, hn, Out.bind_ok]
  | stringClosed body after pay c rest hb he hl hc =>
    have he' : body ++ '"' :: after = pay ++ c :: rest := by simpa using he
    have hp := parseString_closed hb he' hl hc
    have hx := lexStep_tail_of_other (c := '"') (r := body ++ '"' :: after) p (by decide) (by decide)
      (by decide) (by decide) (not_prefix_head (by decide)) (not_prefix_head (by decide)) (by decide)
    have hk : parseKeyword ('"' :: (body ++ '"' :: after)) = .ok none :=
      parseKeyword_no (fun k => keyword_not_prefix (by decide) k)
    have hn : parseNumber ('"' :: (body ++ '"' :: after)) = .ok none := by
      have := parseNumber_int (sgn := []) (ds := []) (c := '"') (r := body ++ '"' :: after)
        (.inl rfl) (by simp) (by decide) (by decide) (fun _ _ => by decide)
      simpa using this
    have hcode : '"' :: (pay ++ [c]) ++ rest = '"' :: (body ++ '"' :: after) := by simp [he']
    rw [hcode, hx]
    unfold lexTail
    simp only [hk, hn, hp, Out.bind_ok]
  | stringOpen body hq =>
    have hp := parseString_open hq
    have hx := lexStep_tail_of_other (c := '"') (r := body) p (by decide) (by decide)
      (by decide) (by decide) (not_prefix_head (by decide)) (not_prefix_head (by decide)) (by decide)
    have hk : parseKeyword ('"' :: body) = .ok none :=
      parseKeyword_no (fun k => keyword_not_prefix (by decide) k)
    have hn : parseNumber ('"' :: body) = .ok none := by
      have := parseNumber_int (sgn := []) (ds := []) (c := '"') (r := body)
        (.inl rfl) (by simp) (by decide) (by decide) (fun _ _ => by decide)
      simpa using this
    rw [List.append_nil, hx]
    unfold lexTail
    simp only [hk, hn, hp, Out.bind_ok]
  | identifier name rest hne hi hr hk =>
    obtain ⟨c, r, rfl⟩ := List.exists_cons_of_ne_nil hne
    have hc : IsIdent c := hi c (by simp)
    have hx : lexStep (c :: r ++ rest) p = lexTail (c :: r ++ rest) p :=
      lexStep_tail_of_ident p hc (fun j hj => absurd hj (hk j))
    have hnd : ¬ (IsDigit c ∨ c = '+' ∨ c = '-' ∨ c = '.') := fun h => (numHead_facts h).2.1 hc
    have hn : parseNumber (c :: r ++ rest) = .ok none := by
      simp only [not_or] at hnd
      have := parseNumber_int (sgn := []) (ds := []) (c := c) (r := r ++ rest)
        (.inl rfl) (by simp) hnd.1 hnd.2.2.2 (fun _ _ => ⟨hnd.2.2.1, hnd.2.1⟩)
      simpa using this
    have hs : parseString (c :: r ++ rest) = .ok none :=
      parseString_ne (by rintro rfl; exact absurd hc (by decide))
    rw [hx]
    unfold lexTail
    simp only [parseKeyword_no hk, hn, hs, parseIdentifier_yes hne hi hr, Out.bind_ok]
  | symbol c rest ha hw hi h1 h2 h3 h4 h5 h6 =>
    have h7 : c ≠ '…' := by rintro rfl; exact absurd ha (by decide)
    have hx := lexStep_tail_of_other (c := c) (r := rest) p hw hi h1 h2 h4 h5 h7
    have hk : parseKeyword (c :: rest) = .ok none :=
      parseKeyword_no (fun k => keyword_not_prefix hi k)
    have hn : parseNumber (c :: rest) = .ok none := by
      rcases parseNumber_cases (c :: rest) with ⟨lex, r, n, he, hl, _⟩ | ⟨_, h⟩
      · exact absurd hl (h6 lex r n he)
      · exact h
    have hs : sliceTo (c :: rest) 1 = .ok [c] :=
      sliceTo_of (a := [c]) rfl (by simp [utf8Size_ascii.2 ha])
    rw [List.cons_append, List.nil_append, hx]
    unfold lexTail
    simp only [hk, hn, parseString_ne h3, parseIdentifier_no hi, hs, Out.bind_ok]

theorem lexStep_unclosed {code : Str} (h : Unclosed code) (p : Position) :
    lexStep code p =
      .ok (.fail (.unclosedMultilineComment { start := p, stop := p.afterLexeme code })) := by
  obtain ⟨⟨r, rfl⟩, h2⟩ := h
  have hm := lexStep_mid (c := 'O') (r := chars!"BTW" ++ r) p (by decide) (by decide) (by decide)
  have hc : parseMultiLineComment ('O' :: (chars!"BTW" ++ r)) = .ok (.error ()) :=
    parseMultiLineComment_unclosed ⟨⟨r, rfl⟩, h2⟩
  have hc0 : parseSingleLineComment ('O' :: (chars!"BTW" ++ r)) = .ok none :=
    parseSingleLineComment_no (not_prefix_head (by decide))
  refine Eq.trans hm ?_
  unfold lexMid
  simp only [hc, hc0, Out.bind_ok]
  rfl

theorem lexStep_stuck {code : Str} (h : Stuck code) (p : Position) :
    lexStep code p = .panic .strSlice := by
  cases h with
  | nonAscii c r ha =>
    have hne : ∀ d, IsAscii d → c ≠ d := fun d hd he => ha (he ▸ hd)
    have hws : ¬ IsWs c := by rintro (h | h | h) <;> exact hne _ (by decide) h
    have hid : ¬ IsIdent c := fun h => ha h.ascii
    have hnd : ¬ (IsDigit c) := fun h => ha h.ascii
    by_cases hell : c = '…'
    · subst hell
      have hk := fun k => keyword_not_prefix (c := '…') (r := r) hid k
      have e3 : parseBukkitSlotAccess ('…' :: r) = .ok none :=
        prefixSlice_no (not_prefix_head (by decide))
      rw [lexStep_mid p hws (by decide) (by decide)]
      unfold lexMid
      simp only [parseSingleLineComment_no (hk .BTW), parseMultiLineComment_no (hk .OBTW), e3,
        parseEllipsis_panic, Out.bind_ok, Out.bind_panic]
    · have hx := lexStep_tail_of_other (c := c) (r := r) p hws hid (hne _ (by decide)) (hne _ (by decide))
        (not_prefix_head (hne _ (by decide)).symm) (not_prefix_head (hne _ (by decide)).symm) hell
      have hk : parseKeyword (c :: r) = .ok none :=
        parseKeyword_no (fun k => keyword_not_prefix hid k)
      have hn : parseNumber (c :: r) = .ok none := by
        have := parseNumber_int (sgn := []) (ds := []) (c := c) (r := r)
          (.inl rfl) (by simp) hnd (hne _ (by decide)) (fun _ _ => ⟨hne _ (by decide), hne _ (by decide)⟩)
        simpa using this
      have hs : sliceTo (c :: r) 1 = .panic .strSlice := by
        have h2 : ¬ c.utf8Size ≤ 0 + 1 := by
          have h3 : c.utf8Size ≠ 1 := fun h => ha (utf8Size_ascii.1 h)
          have := utf8Size_pos c
          omega
        simp only [sliceTo, splitAtByte]
        rw [if_neg h2]
      rw [hx]
      unfold lexTail
      simp only [hk, hn, parseString_ne (hne '"' (by decide)), parseIdentifier_no hid, hs, Out.bind_ok,
        Out.bind_panic]
  | string body after hb hn =>
    have hx := lexStep_tail_of_other (c := '"') (r := body ++ '"' :: after) p (by decide) (by decide)
      (by decide) (by decide) (not_prefix_head (by decide)) (not_prefix_head (by decide)) (by decide)
    have hk : parseKeyword ('"' :: (body ++ '"' :: after)) = .ok none :=
      parseKeyword_no (fun k => keyword_not_prefix (by decide) k)
    have hnum : parseNumber ('"' :: (body ++ '"' :: after)) = .ok none := by
      have := parseNumber_int (sgn := []) (ds := []) (c := '"') (r := body ++ '"' :: after)
        (.inl rfl) (by simp) (by decide) (by decide) (fun _ _ => by decide)
      simpa using this
    rw [hx]
    unfold lexTail
    simp only [hk, hnum, parseString_stuck hb hn, Out.bind_ok, Out.bind_panic]

/-- The four situations at a non-white character are exhaustive. -/
theorem lexeme_or_error (c : Char) (r : Str) (hws : ¬ IsWs c) :
    (∃ lex rest ty, c :: r = lex ++ rest ∧ Lexeme lex rest ty) ∨ Unclosed (c :: r) ∨
      Stuck (c :: r) := by
  by_cases hcomma : c = ','
  · exact .inl ⟨[','], r, _, by simp [hcomma], .comma r⟩
  by_cases hbang : c = '!'
  · exact .inl ⟨['!'], r, _, by simp [hbang], .bang r⟩
  by_cases ha : ¬ IsAscii c
  · exact .inr (.inr (.nonAscii c r ha))
  rw [Classical.not_not] at ha
  by_cases hq : c = '"'
  · subst hq
    rcases parseString_cases r with ⟨body, after, pay, d, rest, h1, h2, h3, h4, h5, _⟩ | ⟨h, _⟩ | ⟨h, _⟩
    · exact .inl ⟨'"' :: (pay ++ [d]), rest, _, by simp [h3],
        .stringClosed body after pay d rest h2 (by rw [← h1, ← h3]) h4 h5⟩
    · exact .inl ⟨'"' :: r, [], _, by simp, .stringOpen r h⟩
    · exact .inr (.inr h)
  by_cases hslot : chars!"'Z" <+: c :: r
  · obtain ⟨rest, h⟩ := hslot
    exact .inl ⟨_, rest, _, h.symm, .slot rest⟩
  by_cases hell : chars!"..." <+: c :: r
  · obtain ⟨rest, h⟩ := hell
    exact .inl ⟨_, rest, _, h.symm, .ellipsis rest⟩
  by_cases hid : IsIdent c
  · rcases keyword_first (c :: r) with ⟨k, rest, h1, h3⟩ | hno
    · by_cases k1 : k = .BTW
      · subst k1
        obtain ⟨body, rest', rfl, hb, hr⟩ := exists_line rest
        exact .inl ⟨chars!"BTW" ++ body, rest', _, by rw [h1, List.append_assoc]; rfl,
          .btw body rest' hb hr⟩
      by_cases k2 : k = .OBTW
      · subst k2
        rcases exists_tldr rest with ⟨body, rest', rfl, hmin⟩ | hno
        · exact .inl ⟨chars!"OBTW" ++ body ++ chars!"TLDR", rest', _,
            by rw [h1]; simp only [List.append_assoc]; rfl, .obtw body rest' hmin⟩
        · refine .inr (.inl ⟨⟨rest, h1.symm⟩, ?_⟩)
          intro u v huv
          rw [h1] at huv
          obtain ⟨b, _, hb⟩ := tldr_after_obtw huv
          exact hno b v hb
      by_cases k3 : k = .WIN
      · subst k3; exact .inl ⟨_, rest, _, h1, .win rest⟩
      by_cases k4 : k = .FAIL
      · subst k4; exact .inl ⟨_, rest, _, h1, .fail rest⟩
      by_cases k5 : k = .NOOB
      · subst k5; exact .inl ⟨_, rest, _, h1, .noob rest⟩
      exact .inl ⟨_, rest, _, h1, .keyword k rest (h1 ▸ h3) k1 k2 k3 k4 k5⟩
    · obtain ⟨name, rest, he, h2, h3⟩ := exists_ident (c :: r)
      have hne : name ≠ [] := by
        rintro rfl
        exact h3 c r (by simpa using he.symm) hid
      exact .inl ⟨name, rest, _, he, .identifier name rest hne h2 h3 (he ▸ hno)⟩
  · rcases parseNumber_cases (c :: r) with ⟨lex, rest, n, he, hn, _⟩ | ⟨hno, _⟩
    · exact .inl ⟨lex, rest, _, he, .number lex rest n hn⟩
    · exact .inl ⟨[c], r, _, rfl, .symbol c r ha hws hid hcomma hbang hq hslot hell hno⟩

end Lol
