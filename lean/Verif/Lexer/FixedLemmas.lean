import Verif.Lexer.Fixed
import Verif.Lexer.CostLemmas
import Verif.Lexer.Run

/-! # Helper lemmas on the tokenizer with 32-bit counters -/

namespace Lol

/-! ## The number scanner -/

theorem toI32_index {i : Nat} (h : i < 4294967296) : toI32 i = 0 ↔ i = 0 := by
  unfold toI32
  omega

theorem numScanFix_eq (s : Str) : ∀ (i : Nat) (dot : Bool), i + s.length ≤ 4294967296 →
    numScanFix i dot s = numScan i dot s := by
  induction s with
  | nil => intro i dot _; simp [numScanFix, numScan]
  | cons c s ih =>
    intro i dot h
    rw [List.length_cons] at h
    rw [numScanFix, numScan, ih _ _ (by omega), ih _ _ (by omega)]
    simp only [toI32_index (show i < 4294967296 by omega)]

theorem parseNumberFix_eq {code : Str} (h : code.length ≤ 4294967296) : parseNumberFix code = parseNumber code := by
  unfold parseNumberFix parseNumber
  rw [numScanFix_eq code 0 false (by omega)]
  rcases numScan 0 false code with _ | ⟨_, _⟩ <;> rfl

/-! ## One round of the loop -/

/-- What the round does to the counters, given what it does to the text. -/
def replay (b : Build) (code : Str) (p : Position) : Out Step → Fix Step
  | .ok (.tok t rest _) => do
    let stop ← p.addFix b (code.take (code.length - rest.length))
    return .tok { range := { start := p, stop := stop }, tokenType := t.tokenType } rest stop
  | .ok (.skip rest _) => do
    let w ← parseWhitespaceFix b code p
    return .skip rest w.2
  | .ok (.fail _) => do
    let stop ← p.addFix b code
    return .fail (.unclosedMultilineComment { start := p, stop := stop })
  | .panic s => .panic s
  | .outOfFuel => .outOfFuel

theorem replay_makeToken (b : Build) {code raw : Str} (p P : Position) (ty : TokenType) (h : raw <+: code) :
    makeTokenFix b code p raw ty = replay b code p (makeToken code P raw ty) := by
  obtain ⟨rest, rfl⟩ := h
  unfold makeTokenFix makeToken
  rw [sliceFrom_append]
  simp [replay, Out.fix]

theorem parseWhitespaceFix_zero {code : Str} (b : Build) (p P : Position) (h : (parseWhitespace code P).1 = 0) :
    parseWhitespaceFix b code p = .ok (0, p) := by
  cases code with
  | nil => rfl
  | cons c cs =>
    rw [parseWhitespace] at h
    rw [parseWhitespaceFix]
    split at h
    · simp at h
    · split at h
      · simp at h
      · rw [if_neg (by assumption), if_neg (by assumption)]

theorem parseWhitespaceFix_count (b : Build) (code : Str) : ∀ (p P : Position) {w : Nat × Position},
    parseWhitespaceFix b code p = .ok w → w.1 = (parseWhitespace code P).1 := by
  induction code with
  | nil => intro p P w h; cases h; rfl
  | cons c cs ih =>
    intro p P w h
    rw [parseWhitespaceFix] at h
    rw [parseWhitespace]
    split at h
    · rw [if_pos (by assumption)]
      cases h1 : addI32 b p.line 1 <;> rw [h1] at h <;> try (cases h; done)
      cases h2 : addI32 b p.bytes (toI32 c.utf8Size) <;> rw [Fix.bind_ok, h2] at h <;> try (cases h; done)
      cases h3 : addI32 b p.chars 1 <;> rw [Fix.bind_ok, h3] at h <;> try (cases h; done)
      rw [Fix.bind_ok] at h
      generalize hr : parseWhitespaceFix b cs _ = r at h
      cases r <;> try (cases h; done)
      cases h
      exact congrArg (· + 1) (ih _ _ hr)
    · rw [if_neg (by assumption)]
      split at h
      · rw [if_pos (by assumption)]
        cases h1 : addI32 b p.column 1 <;> rw [h1] at h <;> try (cases h; done)
        cases h2 : addI32 b p.bytes (toI32 c.utf8Size) <;> rw [Fix.bind_ok, h2] at h <;> try (cases h; done)
        cases h3 : addI32 b p.chars 1 <;> rw [Fix.bind_ok, h3] at h <;> try (cases h; done)
        rw [Fix.bind_ok] at h
        generalize hr : parseWhitespaceFix b cs _ = r at h
        cases r <;> try (cases h; done)
        cases h
        exact congrArg (· + 1) (ih _ _ hr)
      · rw [if_neg (by assumption)]
        cases h
        rfl

theorem sliceFrom_ws (code : Str) (P : Position) : ∃ rest, sliceFrom code (parseWhitespace code P).1 = .ok rest := by
  obtain ⟨ws, rest, rfl, h1, h2⟩ := exists_ws code
  refine ⟨rest, ?_⟩
  rw [parseWhitespace_eq ws rest P h1 h2]
  exact sliceFrom_of rfl (utf8Len_ascii (fun c hc => utf8Size_ascii.1 (h1 c hc).size))

theorem replay_stage {α : Type} {b : Build} {code : Str} {p : Position} {o : Out α} {f : α → Fix Step} {g : α → Out Step}
    (h : ∀ a, o = .ok a → f a = replay b code p (g a)) : (o.fix >>= f) = replay b code p (o >>= g) := by
  cases o with
  | ok a => exact h a rfl
  | panic s => rfl
  | outOfFuel => rfl

theorem lexStepFix_eq (b : Build) {code : Str} (p P : Position) (hl : code.length ≤ 4294967296) :
    lexStepFix b code p = replay b code p (lexStep code P) := by
  unfold lexStepFix lexStep
  by_cases hw : (parseWhitespace code P).1 > 0
  · obtain ⟨rest, hr⟩ := sliceFrom_ws code P
    dsimp only
    rw [if_pos hw, hr]
    simp only [Out.bind_ok, Out.pure_eq, replay]
    cases h : parseWhitespaceFix b code p with
    | ok w =>
      have := parseWhitespaceFix_count b code p P h
      rw [← this] at hr hw
      simp only [Fix.bind_ok]
      rw [if_pos hw, hr]
      rfl
    | overflow => rfl
    | panic s => rfl
    | outOfFuel => rfl
  · rw [parseWhitespaceFix_zero b p P (by omega)]
    dsimp only
    rw [if_neg hw, Fix.bind_ok, if_neg (by simp)]
    split
    · exact replay_stage fun a ha => replay_makeToken b p P _ (sliceTo_ok ha).1
    split
    · exact replay_stage fun a ha => replay_makeToken b p P _ (sliceTo_ok ha).1
    refine replay_stage fun a ha => ?_
    rcases a with _ | ⟨raw, x⟩
    rotate_left
    · exact replay_makeToken b p P _ (singleLine_some ha).1
    refine replay_stage fun a ha => ?_
    rcases a with _ | _ | ⟨raw, x⟩
    · rfl
    rotate_left
    · exact replay_makeToken b p P _ (multiLine_some ha).1
    refine replay_stage fun a ha => ?_
    rcases a with _ | raw
    rotate_left
    · exact replay_makeToken b p P _ (prefixSlice_ok ha)
    refine replay_stage fun a ha => ?_
    rcases a with _ | raw
    rotate_left
    · exact replay_makeToken b p P _ (parseEllipsis_ok ha)
    refine replay_stage fun a ha => ?_
    rcases a with _ | ⟨raw, x⟩
    rotate_left
    · exact replay_makeToken b p P _ (parseBoolean_ok ha)
    refine replay_stage fun a ha => ?_
    rcases a with _ | raw
    rotate_left
    · exact replay_makeToken b p P _ (prefixSlice_ok ha)
    refine replay_stage fun a ha => ?_
    rcases a with _ | ⟨raw, x⟩
    rotate_left
    · exact replay_makeToken b p P _ (parseKeyword_ok ha)
    rw [parseNumberFix_eq hl]
    refine replay_stage fun a ha => ?_
    rcases a with _ | ⟨raw, x⟩
    rotate_left
    · exact replay_makeToken b p P _ (parseNumber_ok ha)
    refine replay_stage fun a ha => ?_
    rcases a with _ | ⟨raw, x⟩
    rotate_left
    · exact replay_makeToken b p P _ (string_some ha).1
    refine replay_stage fun a ha => ?_
    rcases a with _ | raw
    rotate_left
    · exact replay_makeToken b p P _ (ident_some ha).1
    exact replay_stage fun a ha => replay_makeToken b p P _ (sliceTo_ok ha).1

/-! ## The loop -/

/-- One white space character. -/
def wsFix (b : Build) (p : Position) (c : Char) : Fix Position :=
  if c = '\n' then do
    let line ← addI32 b p.line 1
    let bytes ← addI32 b p.bytes (toI32 c.utf8Size)
    let chars ← addI32 b p.chars 1
    return { line := line, column := 1, bytes := bytes, chars := chars }
  else do
    let column ← addI32 b p.column 1
    let bytes ← addI32 b p.bytes (toI32 c.utf8Size)
    let chars ← addI32 b p.chars 1
    return { p with column := column, bytes := bytes, chars := chars }

theorem Fix.bind_assoc' {α β γ : Type} (x : Fix α) (f : α → Fix β) (g : β → Fix γ) :
    ((x >>= f) >>= g) = (x >>= fun a => f a >>= g) := by
  cases x <;> rfl

theorem parseWhitespaceFix_cons (b : Build) {c : Char} (h : IsWs c) (cs : Str) (p : Position) :
    parseWhitespaceFix b (c :: cs) p =
      (wsFix b p c >>= fun q => parseWhitespaceFix b cs q >>= fun w => .ok (w.1 + 1, w.2)) := by
  rw [parseWhitespaceFix, wsFix]
  split
  · simp only [Fix.bind_assoc', Fix.pure_eq, Fix.bind_ok]
  · rw [if_pos (by rcases h with h | h | h <;> simp_all)]
    simp only [Fix.bind_assoc', Fix.pure_eq, Fix.bind_ok]

/-- A block of white space. -/
def wsBlock (b : Build) : Position → Str → Fix Position
  | p, [] => .ok p
  | p, c :: cs => wsFix b p c >>= fun q => wsBlock b q cs

theorem parseWhitespaceFix_block (b : Build) (ws rest : Str) (h : WsOnly ws) (hr : ∀ c r, rest = c :: r → ¬ IsWs c) :
    ∀ p, parseWhitespaceFix b (ws ++ rest) p = (wsBlock b p ws >>= fun q => .ok (ws.length, q)) := by
  induction ws with
  | nil =>
    intro p
    refine parseWhitespaceFix_zero b p p ?_
    have := parseWhitespace_eq [] rest p (by simp [WsOnly]) hr
    rw [this]
    rfl
  | cons c ws ih =>
    intro p
    have ih := ih fun d hd => h d (List.mem_cons_of_mem _ hd)
    rw [List.cons_append, parseWhitespaceFix_cons b (h c (List.mem_cons_self ..)), wsBlock, Fix.bind_assoc']
    congr 1
    funext q
    rw [ih, Fix.bind_assoc']
    rfl

theorem lexStepFix_ws (b : Build) {ws rest : Str} (hne : ws ≠ []) (h : WsOnly ws)
    (hr : ∀ c r, rest = c :: r → ¬ IsWs c) (p : Position) :
    lexStepFix b (ws ++ rest) p = (wsBlock b p ws >>= fun q => .ok (.skip rest q)) := by
  have hs : sliceFrom (ws ++ rest) ws.length = .ok rest :=
    sliceFrom_of rfl (utf8Len_ascii (fun c hc => utf8Size_ascii.1 (h c hc).size))
  have hl : ws.length > 0 := List.length_pos_iff.2 hne
  unfold lexStepFix
  rw [parseWhitespaceFix_block b ws rest h hr, Fix.bind_assoc']
  congr 1
  funext q
  rw [Fix.bind_ok, if_pos hl, hs]
  rfl

/-- The tokenizer from a given position on. -/
def runFix (b : Build) (code : Str) (p : Position) : Fix (Except TokenError (List Token)) :=
  tokenizeLoopFix b (code.length + 1) code p

/-- Prepend a token to a result. -/
def consFix (t : Token) : Fix (Except TokenError (List Token)) → Fix (Except TokenError (List Token))
  | .ok (.ok ts) => .ok (.ok (t :: ts))
  | r => r

/-- Every non-empty source falls into one of four cases. -/
theorem fix_cases (b : Build) (code : Str) (hne : code ≠ []) (hl : code.length ≤ 4294967296) (p : Position) :
    (∃ ws rest, code = ws ++ rest ∧ ws ≠ [] ∧ WsOnly ws ∧ (∀ c r, rest = c :: r → ¬ IsWs c) ∧
      lexStepFix b code p = (wsBlock b p ws >>= fun q => .ok (.skip rest q))) ∨
    (∃ lex rest ty, code = lex ++ rest ∧ Lexeme lex rest ty ∧
      lexStepFix b code p = (p.addFix b lex >>= fun q =>
        .ok (.tok { tokenType := ty, range := { start := p, stop := q } } rest q))) ∨
    (Unclosed code ∧ lexStepFix b code p = (p.addFix b code >>= fun q =>
      .ok (.fail (.unclosedMultilineComment { start := p, stop := q })))) ∨
    (Stuck code ∧ lexStepFix b code p = .panic .strSlice) := by
  rw [lexStepFix_eq b p p hl]
  rcases step_cases code hne p with ⟨ws, rest, h1, h2, h3, h4, h5⟩ | ⟨lex, rest, ty, h1, h2, h3⟩ | ⟨h1, h2⟩ | ⟨h1, h2⟩
  · refine .inl ⟨ws, rest, h1, h2, h3, h4, ?_⟩
    rw [h5, replay, h1, parseWhitespaceFix_block b ws rest h3 h4, Fix.bind_assoc']
    rfl
  · refine .inr (.inl ⟨lex, rest, ty, h1, h2, ?_⟩)
    rw [h3, replay, h1]
    simp
  · exact .inr (.inr (.inl ⟨h1, by rw [h2]; rfl⟩))
  · exact .inr (.inr (.inr ⟨h1, by rw [h2]; rfl⟩))

theorem loopFix_fuel (b : Build) (code : Str) (hl : code.length ≤ 4294967296) : ∀ (n m : Nat) (p : Position),
    code.length < n → code.length < m → tokenizeLoopFix b n code p = tokenizeLoopFix b m code p := by
  induction hk : code.length using Nat.strongRecOn generalizing code with
  | _ k ih =>
    intro n m p hn hm
    obtain ⟨n, rfl⟩ : ∃ n', n = n' + 1 := ⟨n - 1, by omega⟩
    obtain ⟨m, rfl⟩ : ∃ m', m = m' + 1 := ⟨m - 1, by omega⟩
    by_cases hne : code = []
    · subst hne; simp [tokenizeLoopFix]
    rw [tokenizeLoopFix, tokenizeLoopFix, if_pos (utf8Len_pos hne), if_pos (utf8Len_pos hne)]
    rcases fix_cases b code hne hl p with ⟨ws, rest, h1, h2, h3, h4, h5⟩ | ⟨lex, rest, ty, h1, h2, h3⟩ | ⟨h1, h2⟩ |
      ⟨h1, h2⟩
    · have hlen := List.length_pos_iff.2 h2
      have h6 : rest.length < code.length := by rw [h1, List.length_append]; omega
      rw [h5]
      cases wsBlock b p ws with
      | ok q => exact ih _ (by omega) rest (by omega) rfl n m q (by omega) (by omega)
      | overflow => rfl
      | panic s => rfl
      | outOfFuel => rfl
    · have hlen := List.length_pos_iff.2 h2.ne_nil
      have h6 : rest.length < code.length := by rw [h1, List.length_append]; omega
      rw [h3]
      cases p.addFix b lex with
      | ok q =>
        simp only [Fix.bind_ok]
        rw [ih _ (by omega) rest (by omega) rfl n m q (by omega) (by omega)]
      | overflow => rfl
      | panic s => rfl
      | outOfFuel => rfl
    · rw [h2]
      cases p.addFix b code <;> rfl
    · rw [h2]

theorem runFix_nil (b : Build) (p : Position) : runFix b [] p = .ok (.ok []) := by
  simp [runFix, tokenizeLoopFix]

theorem runFix_block (b : Build) {ws rest : Str} (h : WsOnly ws) (hr : ∀ c r, rest = c :: r → ¬ IsWs c)
    (hl : (ws ++ rest).length ≤ 4294967296) (p : Position) :
    runFix b (ws ++ rest) p = (wsBlock b p ws >>= fun q => runFix b rest q) := by
  by_cases hne : ws = []
  · subst hne; rfl
  · have hlen := List.length_pos_iff.2 hne
    have h5 : lexStepFix b (ws ++ rest) p = (wsBlock b p ws >>= fun q => .ok (.skip rest q)) := by
      rw [lexStepFix_eq b p p hl, lexStep_ws hne h hr, replay, parseWhitespaceFix_block b ws rest h hr,
        Fix.bind_assoc']
      rfl
    rw [runFix, tokenizeLoopFix, if_pos (utf8Len_pos (by simp [hne])), h5]
    cases wsBlock b p ws with
    | ok q =>
      simp only [List.length_append] at hl ⊢
      exact loopFix_fuel b rest (by omega) _ _ q (by omega) (by omega)
    | overflow => rfl
    | panic s => rfl
    | outOfFuel => rfl

theorem runFix_ws (b : Build) {c : Char} (h : IsWs c) {r : Str} (hl : (c :: r).length ≤ 4294967296) (p : Position) :
    runFix b (c :: r) p = (wsFix b p c >>= fun q => runFix b r q) := by
  obtain ⟨ws, rest, he, h1, h2⟩ := exists_ws r
  subst he
  rw [← List.cons_append] at hl ⊢
  rw [runFix_block b _ h2 hl, wsBlock, Fix.bind_assoc']
  · congr 1
    funext q
    rw [runFix_block b h1 h2 (by simp only [List.length_append, List.length_cons] at hl ⊢; omega)]
  · intro d hd
    rcases List.mem_cons.1 hd with rfl | hd
    · exact h
    · exact h1 d hd

theorem runFix_lexeme (b : Build) {lex rest : Str} {ty : TokenType} (h : Lexeme lex rest ty)
    (hl : (lex ++ rest).length ≤ 4294967296) (p : Position) :
    runFix b (lex ++ rest) p = (p.addFix b lex >>= fun q =>
      consFix { tokenType := ty, range := { start := p, stop := q } } (runFix b rest q)) := by
  have hlen := List.length_pos_iff.2 h.ne_nil
  have h5 : lexStepFix b (lex ++ rest) p = (p.addFix b lex >>= fun q =>
      .ok (.tok { tokenType := ty, range := { start := p, stop := q } } rest q)) := by
    rw [lexStepFix_eq b p p hl, lexStep_lexeme h, replay]
    simp
  rw [runFix, tokenizeLoopFix, if_pos (utf8Len_pos (by simp [h.ne_nil])), h5]
  cases p.addFix b lex with
  | ok q =>
    simp only [List.length_append] at hl ⊢
    simp only [Fix.bind_ok]
    rw [loopFix_fuel b rest (by omega) _ (rest.length + 1) q (by omega) (by omega)]
    change _ = consFix _ (tokenizeLoopFix b (rest.length + 1) rest q)
    rcases tokenizeLoopFix b (rest.length + 1) rest q with (_ | _) | _ | _ | _ <;> rfl
  | overflow => rfl
  | panic s => rfl
  | outOfFuel => rfl

theorem runFix_unclosed (b : Build) {code : Str} (h : Unclosed code) (hl : code.length ≤ 4294967296) (p : Position) :
    runFix b code p = (p.addFix b code >>= fun q =>
      .ok (.error (.unclosedMultilineComment { start := p, stop := q }))) := by
  obtain ⟨c, r, hc, _⟩ := h.head_not_ws
  have h5 := lexStepFix_eq b p p hl
  rw [lexStep_unclosed h] at h5
  rw [runFix, tokenizeLoopFix, if_pos (utf8Len_pos (by simp [hc])), h5, replay]
  cases p.addFix b code <;> rfl

theorem runFix_stuck (b : Build) {code : Str} (h : Stuck code) (hl : code.length ≤ 4294967296) (p : Position) :
    runFix b code p = .panic .strSlice := by
  obtain ⟨c, r, hc, _⟩ := h.head_not_ws
  have h5 := lexStepFix_eq b p p hl
  rw [lexStep_stuck h] at h5
  rw [runFix, tokenizeLoopFix, if_pos (utf8Len_pos (by simp [hc])), h5]
  rfl

/-- The cases of a source, one white space character at a time. -/
theorem source_cases (code : Str) : code = [] ∨ (∃ c r, code = c :: r ∧ IsWs c) ∨
    (∃ lex rest ty, code = lex ++ rest ∧ Lexeme lex rest ty) ∨ Unclosed code ∨ Stuck code := by
  cases code with
  | nil => exact .inl rfl
  | cons c r =>
    by_cases hws : IsWs c
    · exact .inr (.inl ⟨c, r, rfl, hws⟩)
    · rcases lexeme_or_error c r hws with ⟨lex, rest, ty, he, h⟩ | h | h
      · exact .inr (.inr (.inl ⟨lex, rest, ty, he, h⟩))
      · exact .inr (.inr (.inr (.inl h)))
      · exact .inr (.inr (.inr (.inr h)))

/-! ## Arithmetic -/

theorem toI32_add (x y : Int) : toI32 (toI32 x + toI32 y) = toI32 (x + y) := by
  unfold toI32
  omega

theorem toI32_add_one (x : Int) : toI32 (toI32 x + 1) = toI32 (x + 1) := by
  unfold toI32
  omega

theorem toI32_of_fits {x : Int} (h : InI32 x) : toI32 x = x := by
  unfold toI32
  unfold InI32 at h
  omega

theorem addI32_checked {x y : Int} : addI32 .checked x y = if InI32 (x + y) then .ok (x + y) else .overflow := rfl

end Lol
