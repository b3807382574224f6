import Verif.Parser.TreeSpec

/-!
# Counting the statements of a tree (specification)
-/

namespace Lol

/-- The node is an error. -/
def Node.isError : Node → Bool
  | .astError _ => true
  | _ => false

/-- The node is the error for tokens that are left in a statement. -/
def Node.isLeftover : Node → Bool
  | .astError (.tooManyTokens _) => true
  | _ => false

/-- How many of the statements are not empty. -/
def nonEmpty (L : List (List Token)) : Nat := L.countP fun st => !st.isEmpty

/-- The first tokens of the statements, of those that are not empty. -/
def firstTokens (L : List (List Token)) : List Token := L.filterMap List.head?

/-- How many statements a node without errors is written with, those inside it not counted: one, a second one that
closes a loop, a function, a conditional or a switch, and one for every part of a conditional or a switch. -/
def Node.ownStatements : Node → Nat
  | .imInYr .. => 2
  | .howIzI .. => 2
  | .wtf _ omgs omgWtf => 2 + omgs.length + omgWtf.toList.length
  | .oRly _ yaRly noWai mebbes => 2 + yaRly.toList.length + mebbes.length + noWai.toList.length
  | _ => 1

end Lol
