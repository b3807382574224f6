/-!
# Shared vocabulary of the model

Strings, byte slicing, and the outcome of a computation that may panic.
-/

namespace Lol

open Lean in
/-- `chars!"AB"` is the list `'A' :: 'B' :: []` (expanded at elaboration, so that the kernel never has
to compute with `String`). -/
macro:max "chars!" s:str : term => do
  let mut t ← `(([] : List Char))
  for c in s.getString.toList.reverse do
    t ← `(List.cons $(Syntax.mkCharLit c) $t)
  return t

deriving instance DecidableEq for Except

/-- A Rust `&str`/`String` (`src/lexer/mod.rs:204-207`, `src/lexer/token.rs:17-51`): a sequence of Unicode scalar
values. Simplified: the UTF-8 encoding is represented by `utf8Len` and `splitAtByte` only. -/
abbrev Str := List Char

/-- `str::len`, as called in `src/lexer/mod.rs:48,138,196,215` and `src/lexer/position.rs`: length in UTF-8
bytes. -/
def utf8Len : Str → Nat
  | [] => 0
  | c :: cs => c.utf8Size + utf8Len cs

/-- The places where the Rust code can panic (sites cited at each constructor). -/
inductive PanicSite where
  /-- A `&str` slice off a character boundary or out of range (`src/lexer/mod.rs`). -/
  | strSlice
  /-- `unreachable!()` in `src/parser/statements/mod.rs:220`. -/
  | unreachableStatement
  /-- `todo!()` for `MAEK` in `src/parser/expression/mod.rs:354`. -/
  | todoMaek
  /-- `todo!()` in `src/parser/blocks.rs:112`. -/
  | todoIterErrors
  deriving DecidableEq, Repr

/-- Outcome of a Rust computation (any function of `src/*.rs` that can panic): a value, a panic, or (artefact of the model) the recursion bound
was hit. The theorems on termination show that the last one never happens for the entry points. -/
inductive Out (α : Type) where
  | ok (a : α)
  | panic (p : PanicSite)
  | outOfFuel
  deriving DecidableEq, Repr

namespace Out

/-- Sequencing: panics propagate (Rust `;` and `let` in `src/lexer/mod.rs:15-376`). -/
def bind {α β : Type} : Out α → (α → Out β) → Out β
  | ok a, f => f a
  | panic p, _ => panic p
  | outOfFuel, _ => outOfFuel

instance : Monad Out where
  pure := ok
  bind := bind

@[simp] theorem bind_ok {α β : Type} (a : α) (f : α → Out β) : (Out.ok a >>= f) = f a := rfl
@[simp] theorem bind_panic {α β : Type} (p : PanicSite) (f : α → Out β) :
    (Out.panic p >>= f) = Out.panic p := rfl
@[simp] theorem bind_outOfFuel {α β : Type} (f : α → Out β) :
    (Out.outOfFuel >>= f) = Out.outOfFuel := rfl
@[simp] theorem pure_eq {α : Type} (a : α) : (pure a : Out α) = Out.ok a := rfl

end Out

/-- Split a string at a byte offset; `none` when the offset is past the end or inside a character.
These are exactly the cases where Rust's `&s[..n]` and `&s[n..]` (`src/lexer/mod.rs:31-219`) panic. -/
def splitAtByte : Str → Nat → Option (Str × Str)
  | cs, 0 => some ([], cs)
  | [], _ + 1 => none
  | c :: cs, n + 1 =>
    if c.utf8Size ≤ n + 1 then
      match splitAtByte cs (n + 1 - c.utf8Size) with
      | some (a, b) => some (c :: a, b)
      | none => none
    else none

/-- `&s[..n]`, as in `src/lexer/mod.rs:31,48,66,86,95,125,127,138,140,150,162,180,226,237`. -/
def sliceTo (s : Str) (n : Nat) : Out Str :=
  match splitAtByte s n with
  | some (a, _) => .ok a
  | none => .panic .strSlice

/-- `&s[n..]`, as in `src/lexer/mod.rs:90,196,219`. -/
def sliceFrom (s : Str) (n : Nat) : Out Str :=
  match splitAtByte s n with
  | some (_, b) => .ok b
  | none => .panic .strSlice

/-- `&s[a..b]`, as in `src/lexer/mod.rs:86,161,178`: panics when `a > b`, when `b` is past the end, or off a boundary. -/
def slice (s : Str) (a b : Nat) : Out Str :=
  if a ≤ b then
    match sliceTo s b with
    | .ok p => sliceFrom p a
    | .panic x => .panic x
    | .outOfFuel => .outOfFuel
  else .panic .strSlice

/-- `str::find(pat)`, as in `src/lexer/mod.rs:160,173`: byte offset of the first occurrence of `pat`. -/
def findSub (pat : Str) : Str → Option Nat
  | [] => if pat.isPrefixOf [] then some 0 else none
  | c :: cs =>
    if pat.isPrefixOf (c :: cs) then some 0
    else
      match findSub pat cs with
      | some n => some (c.utf8Size + n)
      | none => none

end Lol
