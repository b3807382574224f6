import Verif.Lexer.Float

/-! # `src/lexer/mod.rs` -/

namespace Lol

/-- The closure passed to `position` in `parse_number`, `src/lexer/mod.rs:17-29`, run along the
characters: `i` is the enumeration index, `dot` is `has_dot_been_used`. Returns the index of the first
character that is not part of the number together with the final `has_dot_been_used`; `none` when every
character is accepted. (Simplification: `index as i32 == 0` is taken as `index = 0`, i.e. sources are
shorter than 2^32 characters; `numScanFix` in `Fixed.lean` has the cast.) -/
def numScan : Nat → Bool → Str → Option (Nat × Bool)
  | _, _, [] => none
  | i, dot, c :: cs =>
    if i = 0 ∧ (c = '-' ∨ c = '+') then numScan (i + 1) dot cs
    else if '0' ≤ c ∧ c ≤ '9' then numScan (i + 1) dot cs
    else if dot = false ∧ c = '.' then numScan (i + 1) true cs
    else some (i, dot)

/-- Value of a string of decimal digits; `none` on a non-digit (part of `number_str.parse()`,
`src/lexer/mod.rs:35`). -/
def digitsVal : Nat → Str → Option Nat
  | acc, [] => some acc
  | acc, c :: cs => if '0' ≤ c ∧ c ≤ '9' then digitsVal (acc * 10 + (c.toNat - 48)) cs else none

/-- `str::parse::<i32>()`, called at `src/lexer/mod.rs:35`: optional sign, at least one digit, result within `i32`. -/
def parseI32 (s : Str) : Option Int :=
  match s with
  | [] => none
  | c :: cs =>
    if c = '-' then
      if cs = [] then none
      else match digitsVal 0 cs with
        | some n => if (n : Int) ≤ 2147483648 then some (-(n : Int)) else none
        | none => none
    else
      let ds := if c = '+' then cs else c :: cs
      if ds = [] then none
      else match digitsVal 0 ds with
        | some n => if (n : Int) ≤ 2147483647 then some n else none
        | none => none

/-- The digits of `str::parse::<f32>()`, called at `src/lexer/mod.rs:33`: digits with a dot, at least one digit.
Simplified: only for texts with a dot and without exponent; no other text reaches it. -/
def parseDecimal (neg : Bool) (s : Str) : Option F32 :=
  let ds := s.takeWhile fun c => decide ('0' ≤ c ∧ c ≤ '9')
  match s.dropWhile fun c => decide ('0' ≤ c ∧ c ≤ '9') with
  | '.' :: es =>
    if ds ++ es = [] then none
    else match digitsVal 0 (ds ++ es) with
      | some n => some ⟨neg, nearestBits n (10 ^ es.length)⟩
      | none => none
  | _ => none

/-- `str::parse::<f32>()`, called at `src/lexer/mod.rs:33`: optional sign, then as `parseDecimal`. -/
def parseF32 (s : Str) : Option F32 :=
  match s with
  | [] => none
  | c :: cs => if c = '-' then parseDecimal true cs else if c = '+' then parseDecimal false cs else parseDecimal false (c :: cs)

/-- `parse_number`, `src/lexer/mod.rs:15-38`. -/
def parseNumber (code : Str) : Out (Option (Str × NumberToken)) :=
  match numScan 0 false code with
  | none => .ok none
  | some (position, hasDot) =>
    match sliceTo code position with
    | .panic p => .panic p
    | .outOfFuel => .outOfFuel
    | .ok numberStr =>
      if hasDot then
        match parseF32 numberStr with
        | some x => .ok (some (numberStr, .float x))
        | none => .ok none
      else
        match parseI32 numberStr with
        | some n => .ok (some (numberStr, .int n))
        | none => .ok none

/-- `parse_keyword`, `src/lexer/mod.rs:40-52`: first keyword in declaration order that prefixes the
code. -/
def parseKeyword (code : Str) : Out (Option (Str × Keyword)) :=
  match Keyword.all.find? (fun k => k.text.isPrefixOf code) with
  | none => .ok none
  | some k =>
    match sliceTo code (utf8Len k.text) with
    | .ok s => .ok (some (s, k))
    | .panic p => .panic p
    | .outOfFuel => .outOfFuel

/-- The `take_while` predicate of `parse_identifier`, `src/lexer/mod.rs:58-60`. -/
def isIdentChar (c : Char) : Bool :=
  c == '_' || (decide ('a' ≤ c) && decide (c ≤ 'z')) || (decide ('A' ≤ c) && decide (c ≤ 'Z'))

/-- `parse_identifier`, `src/lexer/mod.rs:54-68`. -/
def parseIdentifier (code : Str) : Out (Option Str) :=
  let nonIdentPosition := (code.takeWhile isIdentChar).length
  if nonIdentPosition = 0 then .ok none
  else
    match sliceTo code nonIdentPosition with
    | .ok s => .ok (some s)
    | .panic p => .panic p
    | .outOfFuel => .outOfFuel

/-- The `while let` loop of `parse_string`, `src/lexer/mod.rs:78-88`: index (in characters) of the
closing quote; `:"` is skipped. -/
def strScan : Nat → Str → Option Nat
  | _, [] => none
  | i, c :: cs =>
    if c = ':' then
      match cs with
      | [] => strScan (i + 1) []
      | d :: ds => if d = '"' then strScan (i + 2) ds else strScan (i + 1) (d :: ds)
    else if c = '"' then some i
    else strScan (i + 1) cs

/-- `parse_string`, `src/lexer/mod.rs:70-91`. The character index of the closing quote is used as a byte
offset, as in the code. -/
def parseString (code : Str) : Out (Option (Str × Str)) :=
  match code with
  | [] =>
    -- `chars.next()` is `None`, the loop ends at once, `&code[1..]` panics
    match sliceFrom code 1 with
    | .ok s => .ok (some (code, s))
    | .panic p => .panic p
    | .outOfFuel => .outOfFuel
  | c :: cs =>
    if c ≠ '"' then .ok none
    else
      match strScan 1 cs with
      | some index =>
        match sliceTo code (index + 1), slice code 1 index with
        | .ok raw, .ok s => .ok (some (raw, s))
        | .panic p, _ => .panic p
        | .outOfFuel, _ => .outOfFuel
        | .ok _, .panic p => .panic p
        | .ok _, .outOfFuel => .outOfFuel
      | none =>
        match sliceFrom code 1 with
        | .ok s => .ok (some (code, s))
        | .panic p => .panic p
        | .outOfFuel => .outOfFuel

/-- `if code.starts_with(pat) { Some(&code[..n]) } else { None }`, the shape shared by
`parse_bukkit_slot_access`, `parse_boolean`, `parse_noob` and the ellipsis cases (`src/lexer/mod.rs:93-99,
123-154`). -/
def prefixSlice (pat : Str) (n : Nat) (code : Str) : Out (Option Str) :=
  if pat.isPrefixOf code then
    match sliceTo code n with
    | .ok s => .ok (some s)
    | .panic p => .panic p
    | .outOfFuel => .outOfFuel
  else .ok none

/-- `parse_bukkit_slot_access`, `src/lexer/mod.rs:93-99`. -/
def parseBukkitSlotAccess (code : Str) : Out (Option Str) := prefixSlice chars!"'Z" 2 code

/-- `parse_whitespace`, `src/lexer/mod.rs:101-121`: number of characters skipped and the new position. -/
def parseWhitespace : Str → Position → Nat × Position
  | [], p => (0, p)
  | c :: cs, p =>
    if c = '\n' then
      let r := parseWhitespace cs
        { line := p.line + 1, column := 1, bytes := p.bytes + c.utf8Size, chars := p.chars + 1 }
      (r.1 + 1, r.2)
    else if c = ' ' ∨ c = '\t' then
      let r := parseWhitespace cs
        { p with column := p.column + 1, bytes := p.bytes + c.utf8Size, chars := p.chars + 1 }
      (r.1 + 1, r.2)
    else (0, p)

/-- `parse_ellipsis`, `src/lexer/mod.rs:123-131`. The second case slices one *byte* of the three-byte
character U+2026. -/
def parseEllipsis (code : Str) : Out (Option Str) :=
  if chars!"...".isPrefixOf code then prefixSlice chars!"..." 3 code
  else prefixSlice chars!"…" 1 code

/-- `parse_boolean`, `src/lexer/mod.rs:133-144`. -/
def parseBoolean (code : Str) : Out (Option (Str × Bool)) :=
  match prefixSlice Keyword.WIN.text (utf8Len Keyword.WIN.text) code with
  | .panic p => .panic p
  | .outOfFuel => .outOfFuel
  | .ok (some s) => .ok (some (s, true))
  | .ok none =>
    match prefixSlice Keyword.FAIL.text (utf8Len Keyword.FAIL.text) code with
    | .panic p => .panic p
    | .outOfFuel => .outOfFuel
    | .ok (some s) => .ok (some (s, false))
    | .ok none => .ok none

/-- `parse_noob`, `src/lexer/mod.rs:146-154`. -/
def parseNoob (code : Str) : Out (Option Str) :=
  prefixSlice Keyword.NOOB.text (utf8Len Keyword.NOOB.text) code

/-- `parse_single_line_comment`, `src/lexer/mod.rs:156-166`. -/
def parseSingleLineComment (code : Str) : Out (Option (Str × Str)) :=
  if Keyword.BTW.text.isPrefixOf code then
    let endLenBytes := (findSub ['\n'] code).getD (utf8Len code)
    match slice code (utf8Len Keyword.BTW.text) endLenBytes, sliceTo code endLenBytes with
    | .ok contents, .ok raw => .ok (some (raw, contents))
    | .panic p, _ => .panic p
    | .outOfFuel, _ => .outOfFuel
    | .ok _, .panic p => .panic p
    | .ok _, .outOfFuel => .outOfFuel
  else .ok none

/-- `parse_multi_line_comment`, `src/lexer/mod.rs:168-186`. -/
def parseMultiLineComment (code : Str) : Out (Except Unit (Option (Str × Str))) :=
  if Keyword.OBTW.text.isPrefixOf code then
    match findSub Keyword.TLDR.text code with
    | none => .ok (.error ())
    | some endLenBytes =>
      match slice code (utf8Len Keyword.OBTW.text) endLenBytes,
          sliceTo code (endLenBytes + utf8Len Keyword.TLDR.text) with
      | .ok contents, .ok raw => .ok (.ok (some (raw, contents)))
      | .panic p, _ => .panic p
      | .outOfFuel, _ => .outOfFuel
      | .ok _, .panic p => .panic p
      | .ok _, .outOfFuel => .outOfFuel
  else .ok (.ok none)

/-- What one round of the `while` loop of `tokenize` (`src/lexer/mod.rs:215-373`) does. -/
inductive Step where
  /-- whitespace skipped, `continue` -/
  | skip (code : Str) (pos : Position)
  /-- a token pushed, `continue` -/
  | tok (t : Token) (code : Str) (pos : Position)
  /-- `return Err(..)` -/
  | fail (e : TokenError)
  deriving DecidableEq, Repr

/-- `make_token`, `src/lexer/mod.rs:188-201`: new token, remaining code, new position. -/
def makeToken (code : Str) (pos : Position) (raw : Str) (ty : TokenType) : Out Step :=
  let stop := pos.addAssign raw
  match sliceFrom code (utf8Len raw) with
  | .ok rest => .ok (.tok { range := { start := pos, stop := stop }, tokenType := ty } rest stop)
  | .panic p => .panic p
  | .outOfFuel => .outOfFuel

/-- One round of the loop of `tokenize`, `src/lexer/mod.rs:215-373`, with the attempts in source order.
(The second test for `','`, lines 247-256, that would create a `QuestionMark`, is kept.) -/
def lexStep (code : Str) (pos : Position) : Out Step := do
  let ws := parseWhitespace code pos
  if ws.1 > 0 then
    let rest ← sliceFrom code ws.1
    return .skip rest ws.2
  else if [','].isPrefixOf code then
    let raw ← sliceTo code 1
    makeToken code pos raw .comma
  else if ['!'].isPrefixOf code then
    let raw ← sliceTo code 1
    makeToken code pos raw .exclamationMark
  else if [','].isPrefixOf code then
    let raw ← sliceTo code 1
    makeToken code pos raw .questionMark
  else
    match ← parseSingleLineComment code with
    | some (raw, comment) => makeToken code pos raw (.commentSingleLine comment)
    | none =>
    match ← parseMultiLineComment code with
    | .ok (some (raw, comment)) => makeToken code pos raw (.commentMultiLine comment)
    | .error _ => return .fail (.unclosedMultilineComment { start := pos, stop := pos.add code })
    | .ok none =>
    match ← parseBukkitSlotAccess code with
    | some raw => makeToken code pos raw .bukkitSlotAccess
    | none =>
    match ← parseEllipsis code with
    | some raw => makeToken code pos raw .ellipsis
    | none =>
    match ← parseBoolean code with
    | some (raw, b) => makeToken code pos raw (.value (.boolean b))
    | none =>
    match ← parseNoob code with
    | some raw => makeToken code pos raw (.value .noob)
    | none =>
    match ← parseKeyword code with
    | some (raw, k) => makeToken code pos raw (.keyword k)
    | none =>
    match ← parseNumber code with
    | some (raw, n) => makeToken code pos raw (.value (.number n))
    | none =>
    match ← parseString code with
    | some (raw, s) => makeToken code pos raw (.value (.string s))
    | none =>
    match ← parseIdentifier code with
    | some raw => makeToken code pos raw (.identifier raw)
    | none =>
      let raw ← sliceTo code 1
      makeToken code pos raw (.symbol raw)

/-- The `while code.len() > 0` loop of `tokenize`, `src/lexer/mod.rs:215-375`. The pushed tokens are
returned in order. -/
def tokenizeLoop : Nat → Str → Position → Out (Except TokenError (List Token))
  | 0, _, _ => .outOfFuel
  | fuel + 1, code, pos =>
    if utf8Len code > 0 then
      match lexStep code pos with
      | .panic p => .panic p
      | .outOfFuel => .outOfFuel
      | .ok (.fail e) => .ok (.error e)
      | .ok (.skip code' pos') => tokenizeLoop fuel code' pos'
      | .ok (.tok t code' pos') =>
        match tokenizeLoop fuel code' pos' with
        | .ok (.ok ts) => .ok (.ok (t :: ts))
        | r => r
    else .ok (.ok [])

/-- `tokenize`, `src/lexer/mod.rs:204-376`. -/
def tokenize (code : Str) : Out (Except TokenError (List Token)) :=
  tokenizeLoop (code.length + 1) code { line := 1, column := 1, bytes := 0, chars := 0 }

end Lol
