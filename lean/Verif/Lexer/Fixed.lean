import Verif.Lexer.Model
import Verif.Parser.Stmt

/-!
# The tokenizer with 32-bit counters

`Model.lean` takes the four counters of a `Position` as unbounded integers. Here they are what they are in the
code: `i32` values, added with `+` and `+=`, and the lengths added to them are `usize` values cast with `as i32`.
Only the functions with such an operation are modelled again; the others are used as they are.
-/

namespace Lol

/-- How `+` on `i32` (`src/lexer/position.rs:46-48,55-57`, `src/lexer/mod.rs:106-114`) behaves when the result does not
fit: with overflow checks (the `dev` profile, `cargo build`) it panics, without them (the `release` profile) it
wraps. -/
inductive Build where
  | checked
  | wrapping
  deriving DecidableEq, Repr

/-- Outcome of a computation of `src/lexer/mod.rs:101-376` in one of the builds: as `Out`, or the panic "attempt to
add with overflow". -/
inductive Fix (α : Type) where
  | ok (a : α)
  | overflow
  | panic (p : PanicSite)
  | outOfFuel
  deriving DecidableEq, Repr

namespace Fix

/-- Sequencing: panics propagate (Rust `;` and `let` in `src/lexer/mod.rs:101-376`). -/
def bind {α β : Type} : Fix α → (α → Fix β) → Fix β
  | ok a, f => f a
  | overflow, _ => overflow
  | panic p, _ => panic p
  | outOfFuel, _ => outOfFuel

instance : Monad Fix where
  pure := ok
  bind := bind

@[simp] theorem bind_ok {α β : Type} (a : α) (f : α → Fix β) : (Fix.ok a >>= f) = f a := rfl
@[simp] theorem bind_overflow {α β : Type} (f : α → Fix β) :
    ((Fix.overflow : Fix α) >>= f) = Fix.overflow := rfl
@[simp] theorem bind_panic {α β : Type} (p : PanicSite) (f : α → Fix β) :
    (Fix.panic p >>= f) = Fix.panic p := rfl
@[simp] theorem bind_outOfFuel {α β : Type} (f : α → Fix β) :
    (Fix.outOfFuel >>= f) = Fix.outOfFuel := rfl
@[simp] theorem pure_eq {α : Type} (a : α) : (pure a : Fix α) = Fix.ok a := rfl

end Fix

/-- A function of `src/lexer/mod.rs:15-186` without counters, called from `src/lexer/mod.rs:216-372`: no overflow
there. -/
def Out.fix {α : Type} : Out α → Fix α
  | .ok a => .ok a
  | .panic p => .panic p
  | .outOfFuel => .outOfFuel

/-- The cast `as i32` (`src/lexer/position.rs:46-48,55-57`, `src/lexer/mod.rs:18,108,113`) and the result of a wrapping
`+`: the only `i32` that differs from `n` by a multiple of 2^32. -/
def toI32 (n : Int) : Int := (n + 2147483648) % 4294967296 - 2147483648

/-- `a + b` for two `i32` values (`src/lexer/position.rs:46-48,55-57`, `src/lexer/mod.rs:106-114`). -/
def addI32 (b : Build) (x y : Int) : Fix Int :=
  match b with
  | .checked => if -2147483648 ≤ x + y ∧ x + y ≤ 2147483647 then .ok (x + y) else .overflow
  | .wrapping => .ok (toI32 (x + y))

/-- `impl AddAssign<&str> for Position`, `src/lexer/position.rs:53-59`, and `impl Add<&str> for Position`,
`src/lexer/position.rs:41-51`, which does the same additions in the same order. -/
def Position.addFix (b : Build) (p : Position) (s : Str) : Fix Position := do
  let column ← addI32 b p.column (toI32 (utf8Len s))
  let chars ← addI32 b p.chars (toI32 s.length)
  let bytes ← addI32 b p.bytes (toI32 (utf8Len s))
  return { p with column := column, chars := chars, bytes := bytes }

/-- `parse_whitespace`, `src/lexer/mod.rs:101-121`, as `parseWhitespace`. -/
def parseWhitespaceFix (b : Build) : Str → Position → Fix (Nat × Position)
  | [], p => .ok (0, p)
  | c :: cs, p =>
    if c = '\n' then do
      let line ← addI32 b p.line 1
      let bytes ← addI32 b p.bytes (toI32 c.utf8Size)
      let chars ← addI32 b p.chars 1
      let r ← parseWhitespaceFix b cs { line := line, column := 1, bytes := bytes, chars := chars }
      return (r.1 + 1, r.2)
    else if c = ' ' ∨ c = '\t' then do
      let column ← addI32 b p.column 1
      let bytes ← addI32 b p.bytes (toI32 c.utf8Size)
      let chars ← addI32 b p.chars 1
      let r ← parseWhitespaceFix b cs { p with column := column, bytes := bytes, chars := chars }
      return (r.1 + 1, r.2)
    else .ok (0, p)

/-- The closure of `parse_number`, `src/lexer/mod.rs:17-29`, as `numScan`, with the test `index as i32 == 0` of
line 18 as it is. -/
def numScanFix : Nat → Bool → Str → Option (Nat × Bool)
  | _, _, [] => none
  | i, dot, c :: cs =>
    if toI32 i = 0 ∧ (c = '-' ∨ c = '+') then numScanFix (i + 1) dot cs
    else if '0' ≤ c ∧ c ≤ '9' then numScanFix (i + 1) dot cs
    else if dot = false ∧ c = '.' then numScanFix (i + 1) true cs
    else some (i, dot)

/-- `parse_number`, `src/lexer/mod.rs:15-38`, as `parseNumber`. -/
def parseNumberFix (code : Str) : Out (Option (Str × NumberToken)) :=
  match numScanFix 0 false code with
  | none => .ok none
  | some (position, hasDot) =>
    match sliceTo code position with
    | .panic p => .panic p
    | .outOfFuel => .outOfFuel
    | .ok numberStr =>
      if hasDot then
        match parseF32 numberStr with
        | some x => .ok (some (numberStr, .float x))
        | none => .ok none
      else
        match parseI32 numberStr with
        | some n => .ok (some (numberStr, .int n))
        | none => .ok none

/-- `make_token`, `src/lexer/mod.rs:188-201`, as `makeToken`. -/
def makeTokenFix (b : Build) (code : Str) (pos : Position) (raw : Str) (ty : TokenType) : Fix Step := do
  let stop ← pos.addFix b raw
  let rest ← (sliceFrom code (utf8Len raw)).fix
  return .tok { range := { start := pos, stop := stop }, tokenType := ty } rest stop

/-- One round of the loop of `tokenize`, `src/lexer/mod.rs:215-373`, as `lexStep`. -/
def lexStepFix (b : Build) (code : Str) (pos : Position) : Fix Step := do
  let ws ← parseWhitespaceFix b code pos
  if ws.1 > 0 then
    let rest ← (sliceFrom code ws.1).fix
    return .skip rest ws.2
  else if [','].isPrefixOf code then
    let raw ← (sliceTo code 1).fix
    makeTokenFix b code pos raw .comma
  else if ['!'].isPrefixOf code then
    let raw ← (sliceTo code 1).fix
    makeTokenFix b code pos raw .exclamationMark
  else if [','].isPrefixOf code then
    let raw ← (sliceTo code 1).fix
    makeTokenFix b code pos raw .questionMark
  else
    match ← (parseSingleLineComment code).fix with
    | some (raw, comment) => makeTokenFix b code pos raw (.commentSingleLine comment)
    | none =>
    match ← (parseMultiLineComment code).fix with
    | .ok (some (raw, comment)) => makeTokenFix b code pos raw (.commentMultiLine comment)
    | .error _ =>
      let stop ← pos.addFix b code
      return .fail (.unclosedMultilineComment { start := pos, stop := stop })
    | .ok none =>
    match ← (parseBukkitSlotAccess code).fix with
    | some raw => makeTokenFix b code pos raw .bukkitSlotAccess
    | none =>
    match ← (parseEllipsis code).fix with
    | some raw => makeTokenFix b code pos raw .ellipsis
    | none =>
    match ← (parseBoolean code).fix with
    | some (raw, x) => makeTokenFix b code pos raw (.value (.boolean x))
    | none =>
    match ← (parseNoob code).fix with
    | some raw => makeTokenFix b code pos raw (.value .noob)
    | none =>
    match ← (parseKeyword code).fix with
    | some (raw, k) => makeTokenFix b code pos raw (.keyword k)
    | none =>
    match ← (parseNumberFix code).fix with
    | some (raw, n) => makeTokenFix b code pos raw (.value (.number n))
    | none =>
    match ← (parseString code).fix with
    | some (raw, s) => makeTokenFix b code pos raw (.value (.string s))
    | none =>
    match ← (parseIdentifier code).fix with
    | some raw => makeTokenFix b code pos raw (.identifier raw)
    | none =>
      let raw ← (sliceTo code 1).fix
      makeTokenFix b code pos raw (.symbol raw)

/-- The `while code.len() > 0` loop of `tokenize`, `src/lexer/mod.rs:215-375`, as `tokenizeLoop`. -/
def tokenizeLoopFix (b : Build) : Nat → Str → Position → Fix (Except TokenError (List Token))
  | 0, _, _ => .outOfFuel
  | fuel + 1, code, pos =>
    if utf8Len code > 0 then
      match lexStepFix b code pos with
      | .overflow => .overflow
      | .panic p => .panic p
      | .outOfFuel => .outOfFuel
      | .ok (.fail e) => .ok (.error e)
      | .ok (.skip code' pos') => tokenizeLoopFix b fuel code' pos'
      | .ok (.tok t code' pos') =>
        match tokenizeLoopFix b fuel code' pos' with
        | .ok (.ok ts) => .ok (.ok (t :: ts))
        | r => r
    else .ok (.ok [])

/-- `tokenize`, `src/lexer/mod.rs:204-376`, in the given build. -/
def tokenizeFix (b : Build) (code : Str) : Fix (Except TokenError (List Token)) :=
  tokenizeLoopFix b (code.length + 1) code { line := 1, column := 1, bytes := 0, chars := 0 }

/-- `tokenize_and_parse`, `src/lib.rs:76-79`, in the given build. The parser does no arithmetic on counters: it only
compares lines (`src/parser/statement_iterator.rs`), so `parse` is used as it is. -/
def tokenizeAndParseFix (b : Build) (code : Str) : Fix (Except TokenError Block) := do
  match ← tokenizeFix b code with
  | .error e => pure (.error e)
  | .ok tokens =>
    let block ← (parse tokens).fix
    pure (.ok block)

end Lol
