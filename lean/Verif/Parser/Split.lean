import Verif.Parser.Prog

/-!
# Division of a token list into statements (specification)

A statement iterator is seen as the tokens left in the current statement and the list of later statements.
-/

namespace Lol

/-- What a statement iterator has still to deliver. -/
structure Stmts where
  cur : List Token
  later : List (List Token)
  deriving DecidableEq, Repr

namespace Stmts

/-- All statements, the current one first. -/
def all (s : Stmts) : List (List Token) := s.cur :: s.later

/-- The tokens of all statements. -/
def tokens (s : Stmts) : List Token := s.cur ++ s.later.flatten

/-- Add a token in front of the current statement. -/
def push (t : Token) (s : Stmts) : Stmts := { s with cur := t :: s.cur }

/-- Move to the next statement. -/
def advance (s : Stmts) : Stmts :=
  match s.later with
  | [] => { cur := [], later := [] }
  | c :: l => { cur := c, later := l }

/-- The state at the start of a list of statements. -/
def of : List (List Token) → Stmts
  | [] => ⟨[], []⟩
  | c :: l => ⟨c, l⟩

/-- The iterator that reads statements from a list of statements. -/
def ops : IterOps Stmts :=
  { next := fun s => match s.cur with
      | [] => (none, s)
      | t :: c => (some t, { s with cur := c })
    peek := fun s => (s.cur.head?, s)
    nextStatement := fun s => (s.cur, s.advance) }

end Stmts

/-- The line of the first token, or `line` if there is none. -/
def firstLine : List Token → (line : Int) → Int
  | [], line => line
  | t :: _, _ => t.range.start.line

mutual

/-- Divide `tokens`, the current statement being on line `line`: a comma ends it, a token on another line ends
it, and an ellipsis on the line moves it to the line of the token that follows. -/
def splitFrom : List Token → Int → Stmts
  | [], _ => { cur := [], later := [] }
  | t :: rest, line =>
    if t.tokenType = .comma then { cur := [], later := splitGap rest }
    else if t.range.start.line = line then
      if t.tokenType = .ellipsis then splitFrom rest (firstLine rest line)
      else (splitFrom rest line).push t
    else
      { cur := [], later :=
          if t.tokenType = .ellipsis then (splitFrom rest (firstLine rest t.range.start.line)).all
          else ((splitFrom rest t.range.start.line).push t).all }

/-- The same between two statements: commas are skipped. -/
def splitGap : List Token → List (List Token)
  | [] => []
  | t :: rest =>
    if t.tokenType = .comma then splitGap rest
    else if t.tokenType = .ellipsis then (splitFrom rest (firstLine rest t.range.start.line)).all
    else ((splitFrom rest t.range.start.line).push t).all

end

/-- The statements of a token list. -/
def split (tokens : List Token) : Stmts :=
  splitFrom tokens (firstLine tokens 0)

/-- Statement number `k` of a token list, counted from 0; empty when there are no more. -/
def stmt (tokens : List Token) (k : Nat) : List Token := (split tokens).all.getD k []

end Lol
