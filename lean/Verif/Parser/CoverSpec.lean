import Verif.Parser.ReadSpec

/-!
# Statements that leave no token in the tree (specification)
-/

namespace Lol

mutual

/-- The errors in a node, in the order in which they are written. -/
def Node.errors : Node → List ASTError
  | .astError e => [e]
  | .imInYr _ _ _ _ body _ => errorsBlock body
  | .wtf _ omgs omgWtf => errorsOmgs omgs ++ errorsOmgWtf omgWtf
  | .oRly _ yaRly noWai mebbes => errorsYaRly yaRly ++ (errorsMebbes mebbes ++ errorsNoWai noWai)
  | .howIzI _ _ _ body => errorsBlock body
  | .iHasA _ | .hai _ | .bukkitSetSlot _ | .variableAssignment _ | .visible _ | .foundYr _ | .iIz _ | .gtfo _
  | .gimmeh _ | .expression _ | .kThxBye _ => []

/-- The same for the cases of a switch. -/
def errorsOmgs : List WtfOmg → List ASTError
  | [] => []
  | .mk _ _ b :: rest => errorsBlock b ++ errorsOmgs rest

/-- The same for the default case of a switch. -/
def errorsOmgWtf : Option WtfOmgWtf → List ASTError
  | none => []
  | some (.mk _ b) => errorsBlock b

/-- The same for a `YA RLY` part. -/
def errorsYaRly : Option YaRly → List ASTError
  | none => []
  | some (.mk _ b) => errorsBlock b

/-- The same for `MEBBE` parts. -/
def errorsMebbes : List Mebbe → List ASTError
  | [] => []
  | .mk _ _ b :: rest => errorsBlock b ++ errorsMebbes rest

/-- The same for a `NO WAI` part. -/
def errorsNoWai : Option NoWai → List ASTError
  | none => []
  | some (.mk _ b) => errorsBlock b

/-- The same for a block. -/
def errorsBlock : List Node → List ASTError
  | [] => []
  | node :: rest => node.errors ++ errorsBlock rest

end

/-- The statement is `OIC` or `IF U SAY SO`, which the tree does not hold. -/
def Closing (st : List Token) : Prop := ∃ c, st = [c] ∧ (c.Is .OIC ∨ c.Is .IF_U_SAY_SO)

/-- The `i`th of the statements `A` belongs to a construct that fails with one of the errors: that statement or one
before it is the heading of a loop, function, switch or conditional, which is read up to an error that is not before
the `i`th statement. -/
def InFailed (errors : List ASTError) (A : List (List Token)) (i : Nat) : Prop :=
  ∃ first heading later h e s, A = first ++ heading :: later ∧ first.length ≤ i ∧ HeadR [] heading h ∧
    NodeR ⟨heading, later⟩ (.error e s) ∧ i + s.later.length < A.length ∧ e ∈ errors

end Lol
