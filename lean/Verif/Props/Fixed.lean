import Verif.Lexer.FixedLemmas
import Verif.Props.LexerPositions
import Verif.Props.ParserMap

/-! # C88: positions with 32 bits -/

namespace Lol

/-! ## Spec -/

/-- The position with every counter taken modulo 2^32, as an `i32`. -/
def Position.wrapped (p : Position) : Position :=
  { line := toI32 p.line, column := toI32 p.column, bytes := toI32 p.bytes, chars := toI32 p.chars }

/-- Both ends of the range wrapped. -/
def Range.wrapped (r : Range) : Range := { start := r.start.wrapped, stop := r.stop.wrapped }

/-- The same token at the wrapped range. -/
def Token.wrapped (t : Token) : Token := { tokenType := t.tokenType, range := t.range.wrapped }

/-- The same error at the wrapped range. -/
def TokenError.wrapped : TokenError → TokenError
  | .unclosedMultilineComment r => .unclosedMultilineComment r.wrapped

/-- Errors and values of an outcome changed. -/
def changed {α β : Type} (f : TokenError → TokenError) (g : α → β) : Out (Except TokenError α) → Fix (Except TokenError β)
  | .ok (.ok a) => .ok (.ok (g a))
  | .ok (.error e) => .ok (.error (f e))
  | .panic p => .panic p
  | .outOfFuel => .outOfFuel

instance : DecidablePred Position.FitsI32 := fun p => by unfold Position.FitsI32; infer_instance

/-- From `p` on, every position the tokenizer comes to fits in 32 bits, that of the error included. -/
def AllFit (code : Str) (p : Position) : Prop :=
  (∀ ts rest q, Scan code p ts rest q → q.FitsI32) ∧
  (∀ ts rest q, Scan code p ts rest q → Unclosed rest → (q.afterLexeme rest).FitsI32)

/-- From `p` on, every lexeme the tokenizer comes to is shorter than 2^31 bytes, and so is what follows the `OBTW` of an
unclosed comment. -/
def ShortLexemes (code : Str) (p : Position) : Prop :=
  (∀ ts lex rest ty q, Scan code p ts (lex ++ rest) q → Lexeme lex rest ty → utf8Len lex < 2147483648) ∧
  (∀ ts rest q, Scan code p ts rest q → Unclosed rest → utf8Len rest < 2147483648)

/-! ## The cast -/

/-- **C88** The cast used in the model gives the only `i32` that is equal to the number modulo 2^32. -/
theorem C88_cast (n m : Int) : toI32 n = m ↔ InI32 m ∧ ∃ k, m = n + k * 4294967296 := by
  unfold toI32 InI32
  constructor
  · intro h
    refine ⟨by omega, -((n + 2147483648) / 4294967296), by omega⟩
  · rintro ⟨h, k, rfl⟩
    omega

example : toI32 2147483648 = -2147483648 ∧ toI32 4294967299 = 3 ∧ toI32 (-5) = -5 := by decide

/-! ## Without overflow checks -/

private theorem addFix_wrapping (P : Position) (s : Str) :
    P.wrapped.addFix .wrapping s = .ok (P.afterLexeme s).wrapped := by
  unfold Position.addFix addI32 Position.wrapped Position.afterLexeme
  simp only [Fix.bind_ok, toI32_add, Fix.pure_eq]

private theorem wsFix_wrapping {c : Char} (h : IsWs c) (P : Position) :
    wsFix .wrapping P.wrapped c = .ok (P.afterWs c).wrapped := by
  unfold wsFix addI32 Position.wrapped Position.afterWs
  rw [h.size]
  split
  · simp only [Fix.bind_ok, toI32_add, toI32_add_one, Fix.pure_eq]
    rfl
  · simp only [Fix.bind_ok, toI32_add, toI32_add_one, Fix.pure_eq]
    rfl

private theorem runFix_wrapping (code : Str) (hl : code.length ≤ 4294967296) (P : Position) :
    runFix .wrapping code P.wrapped = changed TokenError.wrapped (List.map Token.wrapped) (run code P) := by
  induction hk : code.length using Nat.strongRecOn generalizing code P with
  | _ k ih =>
    rcases source_cases code with rfl | ⟨c, r, rfl, hc⟩ | ⟨lex, rest, ty, rfl, hc⟩ | hc | hc
    · rw [runFix_nil, run_nil]; rfl
    · rw [runFix_ws _ hc hl, wsFix_wrapping hc, Fix.bind_ok, run_ws hc]
      rw [List.length_cons] at hk hl
      exact ih _ (by omega) r (by omega) _ rfl
    · rw [runFix_lexeme _ hc hl, addFix_wrapping, Fix.bind_ok, run_lexeme hc]
      have := List.length_pos_iff.2 hc.ne_nil
      rw [List.length_append] at hk hl
      rw [ih _ (by omega) rest (by omega) _ rfl]
      rcases run rest (P.afterLexeme lex) with (_ | _) | _ | _ <;> rfl
    · rw [runFix_unclosed _ hc hl, addFix_wrapping, Fix.bind_ok, run_unclosed hc]
      rfl
    · rw [runFix_stuck _ hc hl, run_stuck hc]
      rfl

/-- **C88** Without overflow checks, for sources below 2^32 characters: the same tokens, the same error or the same panic
as with unbounded counters, with every counter taken modulo 2^32. -/
theorem C88_wrapping {code : Str} (h : code.length < 4294967296) :
    tokenizeFix .wrapping code = changed TokenError.wrapped (List.map Token.wrapped) (tokenize code) :=
  runFix_wrapping code (Nat.le_of_lt h) .first

example : (chars!"VISIBLE \"é:é\" BTW …\n").length < 4294967296 ∧
    ∃ ts, tokenize chars!"VISIBLE \"ee\" BTW …\n" = .ok (.ok ts) ∧
      tokenizeFix .wrapping chars!"VISIBLE \"ee\" BTW …\n" = .ok (.ok ts) := by
  refine ⟨by decide, _, rfl, ?_⟩
  decide +kernel

private theorem scan_lines {code rest : Str} {p q : Position} {ts : List Token} (h : Scan code p ts rest q)
    (h1 : 1 ≤ p.line) (h2 : p.line ≤ p.chars + 1) : 1 ≤ q.line ∧ q.line ≤ q.chars + 1 := by
  induction h with
  | refl => exact ⟨h1, h2⟩
  | ws c code p ts code' p' hc hs ih =>
    refine ih ?_ ?_ <;> unfold Position.afterWs <;> split <;> simp <;> omega
  | tok lex rest ty p ts code' p' hl hs ih =>
    exact ih h1 (by simp only [Position.afterLexeme]; omega)

/-- **C88** Without overflow checks, for sources below 2^32 characters: the same tree as with unbounded counters, with
every counter taken modulo 2^32. -/
theorem C88_wrapping_tree {code : Str} (h : code.length < 4294967296) :
    tokenizeAndParseFix .wrapping code = changed TokenError.wrapped (mapBlock Token.wrapped) (tokenizeAndParse code) := by
  unfold tokenizeAndParseFix tokenizeAndParse
  rw [C88_wrapping h]
  cases ht : tokenize code with
  | panic p => rfl
  | outOfFuel => rfl
  | ok r =>
    cases r with
    | error e => rfl
    | ok ts =>
      simp only [changed, Fix.bind_ok, Out.bind_ok]
      have hline : ∀ t ∈ ts, 1 ≤ t.range.start.line ∧ t.range.start.line ≤ 4294967296 := by
        intro t ht'
        obtain ⟨q, hq⟩ := tokenize_scan ht
        obtain ⟨pre, lex, post, before, h1, h2, h3, h4, h5, h6, h7⟩ := scan_token hq ht'
        obtain ⟨h8, h9⟩ := scan_lines h3 (by decide) (by decide)
        obtain ⟨pre', h10, h11, h12⟩ := scan_prefix h3
        have h13 : code.length = pre'.length + (lex ++ post).length := by
          rw [h10, List.length_append]
        have : (Position.first).chars = 0 := rfl
        omega
      rw [C55_map (f := Token.wrapped) (fun t => rfl)]
      · cases parse ts <;> rfl
      · intro t ht1 u hu1
        have h1 := hline t ht1
        have h2 := hline u hu1
        simp only [Token.wrapped, Range.wrapped, Position.wrapped]
        unfold toI32
        omega

example : (chars!"GTFO\nx R y\n").length < 4294967296 ∧
    ∃ tree, tokenizeAndParse chars!"GTFO\nx R y\n" = .ok (.ok tree) ∧ tree.length = 2 := by
  refine ⟨by decide, _, rfl, ?_⟩
  decide +kernel

/-! ## With overflow checks -/

/-- Panics from an overflow or does what the other does. -/
private def Le {α : Type} (x y : Fix α) : Prop := x = .overflow ∨ x = y

private theorem Le.rfl {α : Type} (x : Fix α) : Le x x := .inr (Eq.refl _)

private theorem Le.bind {α β : Type} {x y : Fix α} {f g : α → Fix β} (h : Le x y) (hf : ∀ a, Le (f a) (g a)) :
    Le (x >>= f) (y >>= g) := by
  rcases h with rfl | rfl
  · exact .inl (Eq.refl _)
  · cases x with
    | ok a => exact hf a
    | overflow => exact .inl (Eq.refl _)
    | panic p => exact .inr (Eq.refl _)
    | outOfFuel => exact .inr (Eq.refl _)

private theorem Le.addI32 (x y : Int) : Le (addI32 .checked x y) (addI32 .wrapping x y) := by
  unfold Lol.addI32
  dsimp only
  split
  · exact .inr (by rw [toI32_of_fits (by assumption)])
  · exact .inl (Eq.refl _)

private theorem Le.addFix (p : Position) (s : Str) : Le (p.addFix .checked s) (p.addFix .wrapping s) :=
  Le.bind (Le.addI32 _ _) fun _ => Le.bind (Le.addI32 _ _) fun _ => Le.bind (Le.addI32 _ _) fun _ => Le.rfl _

private theorem Le.parseWhitespace (code : Str) : ∀ p,
    Le (parseWhitespaceFix .checked code p) (parseWhitespaceFix .wrapping code p) := by
  induction code with
  | nil => exact fun p => Le.rfl _
  | cons c cs ih =>
    intro p
    rw [parseWhitespaceFix, parseWhitespaceFix]
    split
    · exact Le.bind (Le.addI32 _ _) fun _ => Le.bind (Le.addI32 _ _) fun _ => Le.bind (Le.addI32 _ _) fun _ =>
        Le.bind (ih _) fun _ => Le.rfl _
    · split
      · exact Le.bind (Le.addI32 _ _) fun _ => Le.bind (Le.addI32 _ _) fun _ => Le.bind (Le.addI32 _ _) fun _ =>
          Le.bind (ih _) fun _ => Le.rfl _
      · exact Le.rfl _

private theorem Le.makeToken (code : Str) (p : Position) (raw : Str) (ty : TokenType) :
    Le (makeTokenFix .checked code p raw ty) (makeTokenFix .wrapping code p raw ty) :=
  Le.bind (Le.addFix _ _) fun _ => Le.rfl _

private theorem Le.lexStep (code : Str) (p : Position) : Le (lexStepFix .checked code p) (lexStepFix .wrapping code p) := by
  unfold lexStepFix
  refine Le.bind (Le.parseWhitespace code p) fun w => ?_
  split
  · exact Le.rfl _
  split
  · exact Le.bind (Le.rfl _) fun _ => Le.makeToken ..
  split
  · exact Le.bind (Le.rfl _) fun _ => Le.makeToken ..
  refine Le.bind (Le.rfl _) fun a => ?_
  split
  · exact Le.makeToken ..
  refine Le.bind (Le.rfl _) fun a => ?_
  split
  · exact Le.makeToken ..
  · exact Le.bind (Le.addFix _ _) fun _ => Le.rfl _
  refine Le.bind (Le.rfl _) fun a => ?_
  split
  · exact Le.makeToken ..
  refine Le.bind (Le.rfl _) fun a => ?_
  split
  · exact Le.makeToken ..
  refine Le.bind (Le.rfl _) fun a => ?_
  split
  · exact Le.makeToken ..
  refine Le.bind (Le.rfl _) fun a => ?_
  split
  · exact Le.makeToken ..
  refine Le.bind (Le.rfl _) fun a => ?_
  split
  · exact Le.makeToken ..
  refine Le.bind (Le.rfl _) fun a => ?_
  split
  · exact Le.makeToken ..
  refine Le.bind (Le.rfl _) fun a => ?_
  split
  · exact Le.makeToken ..
  refine Le.bind (Le.rfl _) fun a => ?_
  split
  · exact Le.makeToken ..
  exact Le.bind (Le.rfl _) fun _ => Le.makeToken ..

private theorem Le.loop (n : Nat) : ∀ (code : Str) (p : Position),
    Le (tokenizeLoopFix .checked n code p) (tokenizeLoopFix .wrapping n code p) := by
  induction n with
  | zero => exact fun _ _ => Le.rfl _
  | succ n ih =>
    intro code p
    rw [tokenizeLoopFix, tokenizeLoopFix]
    split
    · rcases Le.lexStep code p with h | h
      · rw [h]
        exact .inl (Eq.refl _)
      · rw [h]
        rcases lexStepFix .wrapping code p with (⟨code', q⟩ | ⟨t, code', q⟩ | e) | _ | _ | _
        · exact ih code' q
        · dsimp only
          rcases ih code' q with h | h
          · rw [h]
            exact .inl (Eq.refl _)
          · rw [h]
            exact Le.rfl _
        · exact Le.rfl _
        · exact Le.rfl _
        · exact Le.rfl _
        · exact Le.rfl _
    · exact Le.rfl _

/-- **C88** For every source, the build with overflow checks panics from an overflow or gives what the build without
them gives. -/
theorem C88_builds (code : Str) :
    tokenizeFix .checked code = .overflow ∨ tokenizeFix .checked code = tokenizeFix .wrapping code := Le.loop _ _ _

example : tokenizeFix .checked chars!"x R 1\n" ≠ .overflow := by decide +kernel

private theorem scan_ws_iff {c : Char} (hc : IsWs c) {r rest : Str} {P q : Position} {ts : List Token} :
    Scan (c :: r) P ts rest q ↔ (ts = [] ∧ rest = c :: r ∧ q = P) ∨ Scan r (P.afterWs c) ts rest q := by
  constructor
  · intro h
    generalize he : c :: r = code at h
    cases h with
    | refl => exact .inl ⟨rfl, rfl, rfl⟩
    | ws d code p ts code' p' hd hs => cases he; exact .inr hs
    | tok lex rest ty p ts code' p' hl hs =>
      obtain ⟨d, s, h1, h2⟩ := hl.head_not_ws
      subst h1
      cases he
      exact (h2 hc).elim
  · rintro (⟨rfl, rfl, rfl⟩ | h)
    · exact .refl _ _
    · exact .ws _ _ _ _ _ _ hc h

private theorem scan_lexeme_inv {lex post rest : Str} {ty : TokenType} (hl : Lexeme lex post ty) {P q : Position}
    {ts : List Token} (h : Scan (lex ++ post) P ts rest q) :
    (rest = lex ++ post ∧ q = P) ∨ ∃ us, Scan post (P.afterLexeme lex) us rest q := by
  generalize he : lex ++ post = code at h
  cases h with
  | refl => exact .inl ⟨rfl, rfl⟩
  | ws d code p ts code' p' hd hs =>
    obtain ⟨d, s, h1, h2⟩ := hl.head_not_ws
    subst h1
    cases he
    exact (h2 hd).elim
  | tok lex' rest' ty' p ts code' p' hl' hs =>
    obtain ⟨rfl, rfl, rfl⟩ := hl.unique hl' he
    exact .inr ⟨_, hs⟩

private theorem scan_end_inv {code rest : Str} (hc : code = [] ∨ Unclosed code ∨ Stuck code) {P q : Position}
    {ts : List Token} (h : Scan code P ts rest q) : rest = code ∧ q = P := by
  have hne : code = [] ∨ ∃ c r, code = c :: r ∧ ¬ IsWs c := by
    rcases hc with hc | hc | hc
    · exact .inl hc
    · exact .inr hc.head_not_ws
    · exact .inr hc.head_not_ws
  cases h with
  | refl => exact ⟨rfl, rfl⟩
  | ws d code p ts code' p' hd hs =>
    rcases hne with hne | ⟨c, r, h1, h2⟩
    · simp at hne
    · cases h1; exact (h2 hd).elim
  | tok lex rest ty p ts code' p' hl hs =>
    have h1 := lexStep_lexeme hl P
    rcases hc with hc | hc | hc
    · simp [hl.ne_nil] at hc
    · rw [lexStep_unclosed hc] at h1; cases h1
    · rw [lexStep_stuck hc] at h1; cases h1

private theorem addFix_checked {P : Position} (hP : P.FitsI32) {s : Str} (hs : utf8Len s < 2147483648) :
    P.addFix .checked s = if (P.afterLexeme s).FitsI32 then .ok (P.afterLexeme s) else .overflow := by
  have hlen := utf8Len_ge_length s
  obtain ⟨h1, h2, h3, h4⟩ := hP
  have e1 : toI32 (utf8Len s) = utf8Len s := toI32_of_fits (by unfold InI32; omega)
  have e2 : toI32 s.length = s.length := toI32_of_fits (by unfold InI32; omega)
  unfold Position.addFix
  rw [e1, e2]
  simp only [addI32_checked]
  by_cases a : InI32 (P.column + utf8Len s)
  · rw [if_pos a, Fix.bind_ok]
    by_cases b : InI32 (P.chars + s.length)
    · rw [if_pos b, Fix.bind_ok]
      by_cases c : InI32 (P.bytes + utf8Len s)
      · rw [if_pos c, Fix.bind_ok, if_pos ⟨h1, a, c, b⟩]
        rfl
      · rw [if_neg c, if_neg (fun h : (P.afterLexeme s).FitsI32 => c h.2.2.1)]
        rfl
    · rw [if_neg b, if_neg (fun h : (P.afterLexeme s).FitsI32 => b h.2.2.2)]
      rfl
  · rw [if_neg a, if_neg (fun h : (P.afterLexeme s).FitsI32 => a h.2.1)]
    rfl

private theorem wsFix_checked {c : Char} (h : IsWs c) {P : Position} (hP : P.FitsI32) :
    wsFix .checked P c = if (P.afterWs c).FitsI32 then .ok (P.afterWs c) else .overflow := by
  obtain ⟨h1, h2, h3, h4⟩ := hP
  have e1 : toI32 (1 : Nat) = 1 := by decide
  unfold wsFix Position.afterWs
  rw [h.size, e1]
  simp only [addI32_checked]
  by_cases hn : c = '\n'
  · simp only [if_pos hn]
    by_cases a : InI32 (P.line + 1)
    · rw [if_pos a, Fix.bind_ok]
      by_cases b : InI32 (P.bytes + 1)
      · rw [if_pos b, Fix.bind_ok]
        by_cases c : InI32 (P.chars + 1)
        · rw [if_pos c, Fix.bind_ok, if_pos ⟨a, (by decide : InI32 1), b, c⟩]
          rfl
        · rw [if_neg c, if_neg (fun h : Position.FitsI32 ⟨P.line + 1, 1, P.bytes + 1, P.chars + 1⟩ => c h.2.2.2)]
          rfl
      · rw [if_neg b, if_neg (fun h : Position.FitsI32 ⟨P.line + 1, 1, P.bytes + 1, P.chars + 1⟩ => b h.2.2.1)]
        rfl
    · rw [if_neg a, if_neg (fun h : Position.FitsI32 ⟨P.line + 1, 1, P.bytes + 1, P.chars + 1⟩ => a h.1)]
      rfl
  · simp only [if_neg hn]
    by_cases a : InI32 (P.column + 1)
    · rw [if_pos a, Fix.bind_ok]
      by_cases b : InI32 (P.bytes + 1)
      · rw [if_pos b, Fix.bind_ok]
        by_cases c : InI32 (P.chars + 1)
        · rw [if_pos c, Fix.bind_ok, if_pos ⟨h1, a, b, c⟩]
          rfl
        · rw [if_neg c, if_neg (fun h : Position.FitsI32 ⟨P.line, P.column + 1, P.bytes + 1, P.chars + 1⟩ => c h.2.2.2)]
          rfl
      · rw [if_neg b, if_neg (fun h : Position.FitsI32 ⟨P.line, P.column + 1, P.bytes + 1, P.chars + 1⟩ => b h.2.2.1)]
        rfl
    · rw [if_neg a, if_neg (fun h : Position.FitsI32 ⟨P.line, P.column + 1, P.bytes + 1, P.chars + 1⟩ => a h.2.1)]
      rfl

private theorem runFix_checked (code : Str) (hl : code.length ≤ 4294967296) (P : Position) (hP : P.FitsI32)
    (hs : ShortLexemes code P) :
    (AllFit code P ∧ runFix .checked code P = (run code P).fix) ∨
      (¬ AllFit code P ∧ runFix .checked code P = .overflow) := by
  induction hk : code.length using Nat.strongRecOn generalizing code P with
  | _ k ih =>
    rcases source_cases code with rfl | ⟨c, r, rfl, hc⟩ | ⟨lex, rest, ty, rfl, hc⟩ | hc | hc
    · refine .inl ⟨⟨?_, ?_⟩, by rw [runFix_nil, run_nil]; rfl⟩
      · intro ts rest q h
        obtain ⟨rfl, rfl⟩ := scan_end_inv (.inl rfl) h
        exact hP
      · intro ts rest q h hu
        obtain ⟨rfl, rfl⟩ := scan_end_inv (.inl rfl) h
        obtain ⟨⟨_, h⟩, _⟩ := hu
        simp at h
    · rw [runFix_ws _ hc hl, wsFix_checked hc hP, run_ws hc]
      rw [List.length_cons] at hk hl
      by_cases hf : (P.afterWs c).FitsI32
      · rw [if_pos hf, Fix.bind_ok]
        have hs' : ShortLexemes r (P.afterWs c) :=
          ⟨fun ts lex rest ty q h => hs.1 ts lex rest ty q ((scan_ws_iff hc).2 (.inr h)),
            fun ts rest q h => hs.2 ts rest q ((scan_ws_iff hc).2 (.inr h))⟩
        have hiff : AllFit (c :: r) P ↔ AllFit r (P.afterWs c) := by
          constructor
          · intro h
            exact ⟨fun ts rest q h' => h.1 ts rest q ((scan_ws_iff hc).2 (.inr h')),
              fun ts rest q h' => h.2 ts rest q ((scan_ws_iff hc).2 (.inr h'))⟩
          · intro h
            refine ⟨fun ts rest q h' => ?_, fun ts rest q h' hu => ?_⟩
            · rcases (scan_ws_iff hc).1 h' with ⟨_, _, rfl⟩ | h'
              · exact hP
              · exact h.1 ts rest q h'
            · rcases (scan_ws_iff hc).1 h' with ⟨_, rfl, _⟩ | h'
              · obtain ⟨d, s, h1, h2⟩ := hu.head_not_ws
                cases h1
                exact (h2 hc).elim
              · exact h.2 ts rest q h' hu
        rw [hiff]
        exact ih _ (by omega) r (by omega) _ hf hs' rfl
      · rw [if_neg hf]
        exact .inr ⟨fun h => hf (h.1 [] r _ ((scan_ws_iff hc).2 (.inr (.refl _ _)))), rfl⟩
    · have hlen := List.length_pos_iff.2 hc.ne_nil
      rw [runFix_lexeme _ hc hl, addFix_checked hP (hs.1 [] lex rest ty P (.refl _ _) hc), run_lexeme hc]
      rw [List.length_append] at hk hl
      by_cases hf : (P.afterLexeme lex).FitsI32
      · rw [if_pos hf, Fix.bind_ok]
        have hs' : ShortLexemes rest (P.afterLexeme lex) :=
          ⟨fun ts lex' rest' ty' q h => hs.1 _ lex' rest' ty' q (.tok lex rest ty P _ _ _ hc h),
            fun ts rest' q h => hs.2 _ rest' q (.tok lex rest ty P _ _ _ hc h)⟩
        have hiff : AllFit (lex ++ rest) P ↔ AllFit rest (P.afterLexeme lex) := by
          constructor
          · intro h
            exact ⟨fun ts rest' q h' => h.1 _ rest' q (.tok lex rest ty P _ _ _ hc h'),
              fun ts rest' q h' => h.2 _ rest' q (.tok lex rest ty P _ _ _ hc h')⟩
          · intro h
            refine ⟨fun ts rest' q h' => ?_, fun ts rest' q h' hu => ?_⟩
            · rcases scan_lexeme_inv hc h' with ⟨_, rfl⟩ | ⟨us, h'⟩
              · exact hP
              · exact h.1 us rest' q h'
            · rcases scan_lexeme_inv hc h' with ⟨rfl, _⟩ | ⟨us, h'⟩
              · have h1 := lexStep_lexeme hc P
                rw [lexStep_unclosed hu] at h1
                cases h1
              · exact h.2 us rest' q h' hu
        rw [hiff]
        rcases ih _ (by omega) rest (by omega) _ hf hs' rfl with ⟨h1, h2⟩ | ⟨h1, h2⟩
        · refine .inl ⟨h1, ?_⟩
          rw [h2]
          rcases run rest (P.afterLexeme lex) with (_ | _) | _ | _ <;> rfl
        · refine .inr ⟨h1, ?_⟩
          rw [h2]
          rfl
      · rw [if_neg hf]
        exact .inr ⟨fun h => hf (h.1 _ rest _ (.tok lex rest ty P _ _ _ hc (.refl _ _))), rfl⟩
    · rw [runFix_unclosed _ hc hl, addFix_checked hP (hs.2 [] code P (.refl _ _) hc), run_unclosed hc]
      by_cases hf : (P.afterLexeme code).FitsI32
      · rw [if_pos hf]
        refine .inl ⟨⟨fun ts rest q h => ?_, fun ts rest q h _ => ?_⟩, rfl⟩
        · obtain ⟨rfl, rfl⟩ := scan_end_inv (.inr (.inl hc)) h
          exact hP
        · obtain ⟨rfl, rfl⟩ := scan_end_inv (.inr (.inl hc)) h
          exact hf
      · rw [if_neg hf]
        exact .inr ⟨fun h => hf (h.2 [] code P (.refl _ _) hc), rfl⟩
    · rw [runFix_stuck _ hc hl, run_stuck hc]
      refine .inl ⟨⟨fun ts rest q h => ?_, fun ts rest q h hu => ?_⟩, rfl⟩
      · obtain ⟨rfl, rfl⟩ := scan_end_inv (.inr (.inr hc)) h
        exact hP
      · obtain ⟨rfl, rfl⟩ := scan_end_inv (.inr (.inr hc)) h
        have h1 := lexStep_unclosed hu q
        rw [lexStep_stuck hc] at h1
        cases h1

/-- **C88** With overflow checks, for sources below 2^32 characters in which no lexeme has 2^31 bytes or more: if every
position the tokenizer comes to fits in 32 bits, the result is the one with unbounded counters; otherwise the tokenizer
panics from an overflow, whatever comes after that position. -/
theorem C88_checked {code : Str} (hl : code.length < 4294967296) (hs : ShortLexemes code .first) :
    (AllFit code .first → tokenizeFix .checked code = (tokenize code).fix) ∧
    (¬ AllFit code .first → tokenizeFix .checked code = .overflow) := by
  rcases runFix_checked code (Nat.le_of_lt hl) .first (by decide) hs with ⟨h1, h2⟩ | ⟨h1, h2⟩
  · exact ⟨fun _ => h2, fun h => (h h1).elim⟩
  · exact ⟨fun h => (h1 h).elim, fun _ => h2⟩

private theorem short_of_small {code : Str} (hlen : utf8Len code < 2147483647) : ShortLexemes code .first := by
  refine ⟨fun ts lex rest ty q h _ => ?_, fun ts rest q h _ => ?_⟩
  · obtain ⟨pre, h1, _⟩ := scan_prefix h
    rw [h1, utf8Len_append, utf8Len_append] at hlen
    omega
  · obtain ⟨pre, h1, _⟩ := scan_prefix h
    rw [h1, utf8Len_append] at hlen
    omega

private theorem fits_of_small {code : Str} (hlen : utf8Len code < 2147483647) : AllFit code .first := by
  refine ⟨(C08_no_i32_overflow hlen).1, fun ts rest q h hu => ?_⟩
  have h1 : tokenize code = .ok (.error (.unclosedMultilineComment { start := q, stop := q.afterLexeme rest })) := by
    rw [tokenize_eq_run]
    exact run_error_iff.2 ⟨ts, rest, q, h, hu, rfl⟩
  exact ((C08_no_i32_overflow hlen).2.2 _ h1).2

-- the hypotheses of `C88_checked` for a short text
example : (chars!"x R OBTW é").length < 4294967296 ∧ ShortLexemes chars!"x R OBTW é" .first ∧
    AllFit chars!"x R OBTW é" .first :=
  ⟨by decide, short_of_small (by decide +kernel), fits_of_small (by decide +kernel)⟩

/-- **C88** For sources below 2^31 - 1 bytes both builds do what the model with unbounded counters does. -/
theorem C88_small {code : Str} (hlen : utf8Len code < 2147483647) (b : Build) :
    tokenizeFix b code = (tokenize code).fix ∧ tokenizeAndParseFix b code = (tokenizeAndParse code).fix := by
  have hl : code.length < 4294967296 := by
    have := utf8Len_ge_length code
    omega
  have h1 : tokenizeFix .checked code = (tokenize code).fix :=
    (C88_checked hl (short_of_small hlen)).1 (fits_of_small hlen)
  have h2 : tokenizeFix b code = (tokenize code).fix := by
    cases b with
    | checked => exact h1
    | wrapping =>
      rcases C88_builds code with h | h
      · rw [h1] at h
        cases ht : tokenize code <;> rw [ht] at h <;> cases h
      · rw [← h, h1]
  refine ⟨h2, ?_⟩
  unfold tokenizeAndParseFix tokenizeAndParse
  rw [h2]
  rcases tokenize code with (e | ts) | _ | _
  · rfl
  · simp only [Out.fix, Fix.bind_ok, Out.bind_ok]
    cases parse ts <;> rfl
  · rfl
  · rfl

example : utf8Len chars!"VISIBLE \"é:é\" OBTW" < 2147483647 := by decide +kernel

/-! ## The bounds are sharp -/

private theorem wsBlock_blanks (n : Nat) : ∀ (P : Position), P.FitsI32 → P.bytes < P.column → P.chars < P.column →
    -2147483648 ≤ P.bytes → -2147483648 ≤ P.chars →
    wsBlock .checked P (List.replicate n ' ') =
      if P.column + n ≤ 2147483647 then .ok ⟨P.line, P.column + n, P.bytes + n, P.chars + n⟩ else .overflow := by
  induction n with
  | zero =>
    intro P hP h1 h2 h3 h4
    have := hP.2.1
    unfold InI32 at this
    rw [if_pos (by omega)]
    simp [wsBlock]
  | succ n ih =>
    intro P hP h1 h2 h3 h4
    have hws : IsWs ' ' := by decide
    have e : P.afterWs ' ' = ⟨P.line, P.column + 1, P.bytes + 1, P.chars + 1⟩ := rfl
    rw [List.replicate_succ, wsBlock, wsFix_checked hws hP, e]
    by_cases hf : Position.FitsI32 ⟨P.line, P.column + 1, P.bytes + 1, P.chars + 1⟩
    · rw [if_pos hf, Fix.bind_ok, ih _ hf (by simp; omega) (by simp; omega) (by simp; omega) (by simp; omega)]
      simp only [Int.natCast_add, Int.add_assoc, Int.add_comm (1 : Int)]
      rfl
    · rw [if_neg hf, Fix.bind_overflow, if_neg]
      intro h
      refine hf ⟨hP.1, ?_, ?_, ?_⟩
      · have := hP.2.1
        unfold InI32 at *
        simp
        omega
      · unfold InI32
        simp
        omega
      · unfold InI32
        simp
        omega

/-- **C88** The bound of `C88_small` cannot be raised: `n` blanks are no token at all, and with overflow checks the
tokenizer panics on them exactly from `n` = 2^31 - 1 on. -/
theorem C88_blanks (n : Nat) :
    tokenizeFix .checked (List.replicate n ' ') = if n < 2147483647 then .ok (.ok []) else .overflow := by
  cases n with
  | zero => rfl
  | succ n =>
    have hw : WsOnly (List.replicate (n + 1) ' ') := by
      intro c hc
      rw [List.eq_of_mem_replicate hc]
      decide
    have h := lexStepFix_ws .checked (rest := []) (by simp) hw (by simp) .first
    rw [List.append_nil, wsBlock_blanks (n + 1) .first (by decide) (by decide) (by decide) (by decide) (by decide)] at h
    have e : Position.first.column = 1 := rfl
    rw [e] at h
    change tokenizeLoopFix .checked ((List.replicate (n + 1) ' ').length + 1) _ .first = _
    rw [tokenizeLoopFix, if_pos (utf8Len_pos (by simp)), h]
    by_cases hn : n + 1 < 2147483647
    · rw [if_pos hn, if_pos (by omega)]
      simp [tokenizeLoopFix]
    · rw [if_neg hn, if_neg (by omega)]
      rfl

example : utf8Len (List.replicate 5 ' ') = 5 ∧ ¬ (2147483647 < 2147483647) := by decide

/-- **C88** A lexeme of 2^31 bytes is enough for wrong positions in both builds, without a panic: the length itself wraps
when it is cast. The comment that fills a source of 2^31 bytes ends, for both builds, at the column 1 - 2^31. -/
theorem C88_long_comment {body : Str} (hb : '\n' ∉ body) (hlen : utf8Len body = 2147483645) (b : Build) :
    ∃ t, tokenizeFix b (chars!"BTW" ++ body) = .ok (.ok [t]) ∧ t.tokenType = .commentSingleLine body ∧
      t.range.start = .first ∧ t.range.stop.column = -2147483647 ∧ t.range.stop.bytes = -2147483648 := by
  have hl := utf8Len_ge_length body
  have h1 : Lexeme (chars!"BTW" ++ body) [] (.commentSingleLine body) := .btw body [] hb (.inl rfl)
  have h2 := runFix_lexeme b h1 (by simp; omega) .first
  rw [List.append_nil] at h2
  have h3 : utf8Len (chars!"BTW" ++ body) = 2147483648 := by
    rw [utf8Len_append, hlen]
    decide
  have h4 : ∃ x, addI32 b 0 (toI32 (chars!"BTW" ++ body).length) = .ok x := by
    have h5 : (chars!"BTW" ++ body).length ≤ 2147483648 := by simp; omega
    generalize (chars!"BTW" ++ body).length = m at h5
    cases b with
    | wrapping => exact ⟨_, rfl⟩
    | checked =>
      refine ⟨0 + toI32 m, ?_⟩
      rw [addI32_checked, if_pos]
      unfold InI32 toI32
      omega
  obtain ⟨x, h4⟩ := h4
  have h5 : Position.first.addFix b (chars!"BTW" ++ body) = .ok ⟨1, -2147483647, -2147483648, x⟩ := by
    unfold Position.addFix
    rw [h3]
    change (addI32 b 1 (toI32 2147483648) >>= fun column => addI32 b 0 _ >>= fun chars =>
      addI32 b 0 (toI32 2147483648) >>= fun bytes => _) = _
    have e1 : addI32 b 1 (toI32 2147483648) = .ok (-2147483647) := by cases b <;> decide
    have e2 : addI32 b 0 (toI32 2147483648) = .ok (-2147483648) := by cases b <;> decide
    rw [e1, h4, e2]
    rfl
  rw [h5] at h2
  exact ⟨_, h2, rfl, rfl, rfl, rfl⟩

private theorem utf8Len_replicate (n : Nat) : utf8Len (List.replicate n 'x') = n := by
  induction n with
  | zero => rfl
  | succ n ih =>
    rw [List.replicate_succ, utf8Len, ih]
    have : 'x'.utf8Size = 1 := by decide
    omega

-- such a comment
example : ∃ body : Str, '\n' ∉ body ∧ utf8Len body = 2147483645 :=
  ⟨List.replicate 2147483645 'x', fun h => absurd (List.eq_of_mem_replicate h) (by decide), utf8Len_replicate _⟩

private theorem numScanFix_zeros (n : Nat) : ∀ (i : Nat) (rest : Str),
    numScanFix i false (List.replicate n '0' ++ rest) = numScanFix (i + n) false rest := by
  induction n with
  | zero => intro i rest; rfl
  | succ n ih =>
    intro i rest
    rw [List.replicate_succ, List.cons_append, numScanFix, if_neg (fun h => by simpa using h.2),
      if_pos (by decide), ih]
    congr 1
    omega

private theorem digitsVal_zeros (n : Nat) : digitsVal 0 (List.replicate n '0') = some 0 := by
  induction n with
  | zero => rfl
  | succ n ih =>
    rw [List.replicate_succ, digitsVal, if_pos (by decide)]
    exact ih

private theorem digitsVal_zeros_sign (n : Nat) : digitsVal 0 (List.replicate n '0' ++ ['+']) = none := by
  induction n with
  | zero => decide
  | succ n ih =>
    rw [List.replicate_succ, List.cons_append, digitsVal, if_pos (by decide)]
    exact ih

private theorem replicate_utf8 (n : Nat) : utf8Len (List.replicate n '0') = n := by
  induction n with
  | zero => rfl
  | succ n ih =>
    rw [List.replicate_succ, utf8Len, ih]
    have : '0'.utf8Size = 1 := by decide
    omega

private theorem zeros_sign {n : Nat} (h0 : n ≠ 0) (h : toI32 n = 0) :
    parseNumber (List.replicate n '0' ++ chars!"+ ") = .ok (some (List.replicate n '0', .int 0)) ∧
    parseNumberFix (List.replicate n '0' ++ chars!"+ ") = .ok none := by
  obtain ⟨m, rfl⟩ : ∃ m, n = m + 1 := ⟨n - 1, by omega⟩
  constructor
  · unfold parseNumber
    rw [numScan_digits 0 false _ _ (fun d hd => by rw [List.eq_of_mem_replicate hd]; decide), List.length_replicate,
      Nat.zero_add, numScan, if_neg (by simp), if_neg (by decide), if_neg (by simp)]
    simp only [sliceTo_of (s := List.replicate (m + 1) '0' ++ chars!"+ ") rfl (replicate_utf8 (m + 1))]
    have h3 : parseI32 ('0' :: List.replicate m '0') = some 0 := by
      unfold parseI32
      simp only [show ¬ ('0' = '-') by decide, show ¬ ('0' = '+') by decide, if_false, List.cons_ne_nil]
      rw [← List.replicate_succ, digitsVal_zeros]
      rfl
    rw [List.replicate_succ, h3]
    rfl
  · unfold parseNumberFix
    rw [numScanFix_zeros, Nat.zero_add, numScanFix, if_pos ⟨h, .inr rfl⟩, numScanFix, if_neg (fun h => by simpa using h.2),
      if_neg (by decide), if_neg (by simp)]
    have h2 : sliceTo (List.replicate (m + 1) '0' ++ chars!"+ ") (m + 1 + 1) =
        .ok (List.replicate (m + 1) '0' ++ ['+']) := by
      have := sliceTo_of (s := List.replicate (m + 1) '0' ++ chars!"+ ") (a := List.replicate (m + 1) '0' ++ ['+'])
        (b := [' ']) (n := m + 1 + 1) (by simp) (by rw [utf8Len_append, replicate_utf8]; rfl)
      exact this
    simp only [h2]
    rw [List.replicate_succ, List.cons_append]
    have h3 : parseI32 ('0' :: (List.replicate m '0' ++ ['+'])) = none := by
      unfold parseI32
      simp only [show ¬ ('0' = '-') by decide, show ¬ ('0' = '+') by decide, if_false, List.cons_ne_nil]
      rw [← List.cons_append, ← List.replicate_succ, digitsVal_zeros_sign]
    rw [h3]
    rfl

/-- **C88** The bound of `C88_wrapping` on the number of characters: `index as i32 == 0` (`src/lexer/mod.rs:18`) is true
again at the index 2^32, so a sign after 2^32 digits is taken for a part of the number, which then is none. -/
theorem C88_index :
    parseNumber (List.replicate 4294967296 '0' ++ chars!"+ ") = .ok (some (List.replicate 4294967296 '0', .int 0)) ∧
    parseNumberFix (List.replicate 4294967296 '0' ++ chars!"+ ") = .ok none :=
  zeros_sign (by decide) (by decide)

end Lol
