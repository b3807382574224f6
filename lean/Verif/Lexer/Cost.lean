import Verif.Lexer.Model

/-!
# The work that `tokenize` does

`src/lexer/mod.rs` once more, with a counter of the characters that are looked at: each character that a closure or a
loop of the lexer is given, each character of a text that is converted to a number or added to a position, and for
each comparison with a fixed text the length of this text. Simplified: `find` is counted as if it looked at every
character up to the end of what it finds once (the algorithm of the standard library looks at each character at most a
fixed number of times); copying a slice to a `String` is not counted.
-/

namespace Lol

/-- An outcome, and how many characters were looked at (any function of `src/lexer/mod.rs`). -/
structure Counted (α : Type) where
  result : Out α
  count : Nat

namespace Counted

/-- Sequencing (Rust `;` and `let` in `src/lexer/mod.rs:15-376`): the numbers are added. -/
def bind {α β : Type} (x : Counted α) (f : α → Counted β) : Counted β :=
  match x.result with
  | .ok a => ⟨(f a).result, x.count + (f a).count⟩
  | .panic p => ⟨.panic p, x.count⟩
  | .outOfFuel => ⟨.outOfFuel, x.count⟩

instance : Monad Counted where
  pure a := ⟨.ok a, 0⟩
  bind := bind

end Counted

/-- The outcome of a function of `src/lexer/mod.rs` that looks at `n` characters. -/
def look {α : Type} (n : Nat) (x : Out α) : Counted α := ⟨x, n⟩

/-- The characters that the `take_while` of `parse_whitespace` looks at, `src/lexer/mod.rs:104-119`. -/
def wsLooks : Str → Nat
  | [] => 0
  | c :: cs => if c = '\n' then wsLooks cs + 1 else if c = ' ' ∨ c = '\t' then wsLooks cs + 1 else 1

/-- The characters that the `position` of `parse_number` looks at, `src/lexer/mod.rs:17-29`. -/
def numLooks : Nat → Bool → Str → Nat
  | _, _, [] => 0
  | i, dot, c :: cs =>
    if i = 0 ∧ (c = '-' ∨ c = '+') then numLooks (i + 1) dot cs + 1
    else if '0' ≤ c ∧ c ≤ '9' then numLooks (i + 1) dot cs + 1
    else if dot = false ∧ c = '.' then numLooks (i + 1) true cs + 1
    else 1

/-- The characters that `parse_number` looks at, `src/lexer/mod.rs:15-38`: those of `position`, and those of
`number_str.parse()`. -/
def numberLooks (code : Str) : Nat :=
  numLooks 0 false code + match numScan 0 false code with
    | some (position, _) => position
    | none => 0

/-- The comparisons of `parse_keyword`, `src/lexer/mod.rs:41-45`: the keywords up to the one that is found. -/
def keywordLooks (code : Str) : List Keyword → Nat
  | [] => 0
  | k :: ks => k.text.length + if k.text.isPrefixOf code then 0 else keywordLooks code ks

/-- The characters that the `take_while` of `parse_identifier` looks at, `src/lexer/mod.rs:58-60`. -/
def identLooks : Str → Nat
  | [] => 0
  | c :: cs => if isIdentChar c then identLooks cs + 1 else 1

/-- The characters that the loop of `parse_string` looks at, `src/lexer/mod.rs:78-88`; `peek` looks at one. -/
def strLooks : Str → Nat
  | [] => 0
  | c :: cs =>
    if c = ':' then
      match cs with
      | [] => 1
      | d :: ds => if d = '"' then strLooks ds + 2 else strLooks (d :: ds) + 2
    else if c = '"' then 1
    else strLooks cs + 1

/-- The characters that `parse_string` looks at, `src/lexer/mod.rs:70-91`. -/
def stringLooks (code : Str) : Nat :=
  match code with
  | [] => 0
  | c :: cs => if c ≠ '"' then 1 else strLooks cs + 1

/-- The characters that `str::find` looks at, `src/lexer/mod.rs:160,173`: all up to the end of the match. -/
def findLooks (pat : Str) : Str → Nat
  | [] => 0
  | c :: cs => if pat.isPrefixOf (c :: cs) then pat.length else findLooks pat cs + 1

/-- `parse_single_line_comment`, `src/lexer/mod.rs:156-166` -/
def singleLineLooks (code : Str) : Nat :=
  Keyword.BTW.text.length + if Keyword.BTW.text.isPrefixOf code then findLooks ['\n'] code else 0

/-- `parse_multi_line_comment`, `src/lexer/mod.rs:168-186` -/
def multiLineLooks (code : Str) : Nat :=
  Keyword.OBTW.text.length + if Keyword.OBTW.text.isPrefixOf code then findLooks Keyword.TLDR.text code else 0

/-- `make_token`, `src/lexer/mod.rs:188-201`: the position is moved over the characters of the token. -/
def makeTokenCounted (code : Str) (pos : Position) (raw : Str) (ty : TokenType) : Counted Step :=
  look raw.length (makeToken code pos raw ty)

/-- One round of the loop of `tokenize`, `src/lexer/mod.rs:215-373`. -/
def lexStepCounted (code : Str) (pos : Position) : Counted Step := do
  let ws ← look (wsLooks code) (.ok (parseWhitespace code pos))
  if ws.1 > 0 then
    let rest ← look 0 (sliceFrom code ws.1)
    return .skip rest ws.2
  else if [','].isPrefixOf code then
    let raw ← look 1 (sliceTo code 1)
    makeTokenCounted code pos raw .comma
  else if ['!'].isPrefixOf code then
    let raw ← look 2 (sliceTo code 1)
    makeTokenCounted code pos raw .exclamationMark
  else if [','].isPrefixOf code then
    let raw ← look 3 (sliceTo code 1)
    makeTokenCounted code pos raw .questionMark
  else
    match ← look (3 + singleLineLooks code) (parseSingleLineComment code) with
    | some (raw, comment) => makeTokenCounted code pos raw (.commentSingleLine comment)
    | none =>
    match ← look (multiLineLooks code) (parseMultiLineComment code) with
    | .ok (some (raw, comment)) => makeTokenCounted code pos raw (.commentMultiLine comment)
    | .error _ => look code.length (.ok (.fail (.unclosedMultilineComment { start := pos, stop := pos.add code })))
    | .ok none =>
    match ← look 2 (parseBukkitSlotAccess code) with
    | some raw => makeTokenCounted code pos raw .bukkitSlotAccess
    | none =>
    match ← look 4 (parseEllipsis code) with
    | some raw => makeTokenCounted code pos raw .ellipsis
    | none =>
    match ← look (Keyword.WIN.text.length + Keyword.FAIL.text.length) (parseBoolean code) with
    | some (raw, b) => makeTokenCounted code pos raw (.value (.boolean b))
    | none =>
    match ← look Keyword.NOOB.text.length (parseNoob code) with
    | some raw => makeTokenCounted code pos raw (.value .noob)
    | none =>
    match ← look (keywordLooks code Keyword.all) (parseKeyword code) with
    | some (raw, k) => makeTokenCounted code pos raw (.keyword k)
    | none =>
    match ← look (numberLooks code) (parseNumber code) with
    | some (raw, n) => makeTokenCounted code pos raw (.value (.number n))
    | none =>
    match ← look (stringLooks code) (parseString code) with
    | some (raw, s) => makeTokenCounted code pos raw (.value (.string s))
    | none =>
    match ← look (identLooks code) (parseIdentifier code) with
    | some raw => makeTokenCounted code pos raw (.identifier raw)
    | none =>
      let raw ← look 0 (sliceTo code 1)
      makeTokenCounted code pos raw (.symbol raw)

/-- The `while code.len() > 0` loop of `tokenize`, `src/lexer/mod.rs:215-375`. -/
def tokenizeLoopCounted : Nat → Str → Position → Counted (Except TokenError (List Token))
  | 0, _, _ => look 0 .outOfFuel
  | fuel + 1, code, pos =>
    if utf8Len code > 0 then do
      match ← lexStepCounted code pos with
      | .fail e => return .error e
      | .skip code' pos' => tokenizeLoopCounted fuel code' pos'
      | .tok t code' pos' =>
        match ← tokenizeLoopCounted fuel code' pos' with
        | .ok ts => return .ok (t :: ts)
        | .error e => return .error e
    else return .ok []

/-- `tokenize`, `src/lexer/mod.rs:204-376`, with the number of characters that it looks at. -/
def tokenizeCounted (code : Str) : Counted (Except TokenError (List Token)) :=
  tokenizeLoopCounted (code.length + 1) code { line := 1, column := 1, bytes := 0, chars := 0 }

/-! ## These are the functions of the model -/

theorem Counted.result_bind {α β : Type} (x : Counted α) (f : α → Counted β) :
    (x >>= f).result = x.result >>= fun a => (f a).result := by
  change (x.bind f).result = _
  unfold Counted.bind
  cases x.result <;> rfl

theorem Counted.result_pure {α : Type} (a : α) : (pure a : Counted α).result = .ok a := rfl

theorem look_result {α : Type} (n : Nat) (x : Out α) : (look n x).result = x := rfl

theorem Counted.result_bind_congr {α β : Type} {x : Counted α} {y : Out α} {f : α → Counted β} {g : α → Out β}
    (hx : x.result = y) (hf : ∀ a, (f a).result = g a) : (x >>= f).result = (y >>= g) := by
  rw [Counted.result_bind, hx, funext hf]

theorem lexStepCounted_result (code : Str) (pos : Position) :
    (lexStepCounted code pos).result = lexStep code pos := by
  have hm : ∀ raw ty, (makeTokenCounted code pos raw ty).result = makeToken code pos raw ty := fun _ _ => rfl
  unfold lexStepCounted lexStep
  rw [Counted.result_bind, look_result, Out.bind_ok]
  dsimp only
  by_cases h0 : (parseWhitespace code pos).1 > 0
  · rw [if_pos h0, if_pos h0]
    exact Counted.result_bind_congr rfl fun _ => rfl
  rw [if_neg h0, if_neg h0]
  by_cases h1 : [','].isPrefixOf code
  · rw [if_pos h1, if_pos h1]
    exact Counted.result_bind_congr rfl fun _ => rfl
  simp only [if_neg h1]
  by_cases h2 : ['!'].isPrefixOf code
  · rw [if_pos h2, if_pos h2]
    exact Counted.result_bind_congr rfl fun _ => rfl
  simp only [if_neg h2]
  refine Counted.result_bind_congr rfl fun o => ?_
  rcases o with _ | ⟨_, _⟩
  rotate_left
  · rfl
  refine Counted.result_bind_congr rfl fun o => ?_
  rcases o with _ | _ | ⟨_, _⟩
  · rfl
  rotate_left
  · rfl
  refine Counted.result_bind_congr rfl fun o => ?_
  rcases o with _ | _
  rotate_left
  · rfl
  refine Counted.result_bind_congr rfl fun o => ?_
  rcases o with _ | _
  rotate_left
  · rfl
  refine Counted.result_bind_congr rfl fun o => ?_
  rcases o with _ | ⟨_, _⟩
  rotate_left
  · rfl
  refine Counted.result_bind_congr rfl fun o => ?_
  rcases o with _ | _
  rotate_left
  · rfl
  refine Counted.result_bind_congr rfl fun o => ?_
  rcases o with _ | ⟨_, _⟩
  rotate_left
  · rfl
  refine Counted.result_bind_congr rfl fun o => ?_
  rcases o with _ | ⟨_, _⟩
  rotate_left
  · rfl
  refine Counted.result_bind_congr rfl fun o => ?_
  rcases o with _ | ⟨_, _⟩
  rotate_left
  · rfl
  refine Counted.result_bind_congr rfl fun o => ?_
  rcases o with _ | _
  rotate_left
  · rfl
  exact Counted.result_bind_congr rfl fun _ => rfl

theorem tokenizeLoopCounted_result (n : Nat) : ∀ (code : Str) (pos : Position),
    (tokenizeLoopCounted n code pos).result = tokenizeLoop n code pos := by
  induction n with
  | zero => intros; rfl
  | succ n ih =>
    intro code pos
    rw [tokenizeLoopCounted, tokenizeLoop]
    split
    · rw [Counted.result_bind, lexStepCounted_result]
      cases lexStep code pos with
      | panic p => rfl
      | outOfFuel => rfl
      | ok s =>
        rw [Out.bind_ok]
        cases s with
        | fail e => rfl
        | skip code' pos' => exact ih code' pos'
        | tok t code' pos' =>
          dsimp only
          rw [Counted.result_bind, ih]
          cases tokenizeLoop n code' pos' with
          | panic p => rfl
          | outOfFuel => rfl
          | ok r => cases r <;> rfl
    · rfl

theorem tokenizeCounted_result (code : Str) : (tokenizeCounted code).result = tokenize code :=
  tokenizeLoopCounted_result _ _ _

end Lol
