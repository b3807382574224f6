import Verif.Parser.TreeSpec

/-!
# Writing trees down (specification)

`printBlock` gives the statements of a program for a tree. The tree does not hold all tokens of a program (`YR`,
`ITZ`, `MKAY`, `?`, the closing tokens, ...); these are added without a position. `Node.Shape` says what a node without
errors has to meet besides `Node.WF`.
-/

namespace Lol

/-- A token without a position. -/
def bare (ty : TokenType) : Token := ⟨ty, ⟨⟨0, 0, 0, 0⟩, ⟨0, 0, 0, 0⟩⟩⟩

/-- A keyword that the tree does not hold. -/
def word (k : Keyword) : Token := bare (.keyword k)

/-- The `?` that the tree does not hold. -/
def question : Token := bare (.symbol ['?'])

/-- Arguments of `I IZ`, separated by `AN`. -/
def printArgs : List Expr → List Token
  | [] => []
  | [e] => word .YR :: e.toks
  | e :: e' :: es => word .YR :: (e.toks ++ word .AN :: printArgs (e' :: es))

/-- Parameters of `HOW IZ I`, separated by `AN`. -/
def printParams : List Identifier → List Token
  | [] => []
  | [i] => word .YR :: i.toks
  | i :: i' :: is => word .YR :: (i.toks ++ word .AN :: printParams (i' :: is))

/-- The `UPPIN`/`NERFIN` part of a loop header. -/
def printIteration : Option LoopIterationOperation → List Token
  | none => []
  | some o => o.operation.token :: word .YR :: o.operand.toks

/-- The `TIL`/`WILE` part of a loop header. -/
def printCondition : Option LoopCondition → List Token
  | none => []
  | some (.til e) => word .TIL :: e.toks
  | some (.wile e) => word .WILE :: e.toks

mutual

/-- The statements of a node. `HAI`, functions and switches take an empty statement with them. -/
def Node.print : Node → List (List Token)
  | .iHasA ⟨t, i, none⟩ => [t :: i.toks]
  | .iHasA ⟨t, i, some v⟩ => [t :: (i.toks ++ word .ITZ :: v.toks)]
  | .hai n => [n.haiToken :: n.version, []]
  | .imInYr t label op cond body endLabel =>
    (t :: label :: (printIteration op ++ printCondition cond)) ::
      (printBlock body ++ [[word .IM_OUTTA_YR, endLabel]])
  | .bukkitSetSlot n => [n.bukkit.toks ++ word .HAS_A :: (n.slotName.toks ++ word .ITZ :: n.value.toks)]
  | .variableAssignment n => [n.variableAccess.toks ++ n.rToken :: n.expression.toks]
  | .visible n => [n.visibleToken :: (n.expressions.flatMap (·.toks) ++ n.exclamationMark.toList)]
  | .foundYr n => [n.foundYrToken :: n.expression.toks]
  | .wtf t omgs omgWtf => [t, question] :: (printOmgs omgs ++ (printOmgWtf omgWtf ++ [[word .OIC], []]))
  | .oRly t yaRly noWai mebbes =>
    [t, question] :: (printYaRly yaRly ++ (printMebbes mebbes ++ (printNoWai noWai ++ [[word .OIC]])))
  | .iIz n => [n.iIzToken :: (n.name.toks ++ (printArgs n.arguments ++ [word .MKAY]))]
  | .howIzI t name params body =>
    (t :: (name.toks ++ printParams params)) :: (printBlock body ++ [[word .IF_U_SAY_SO], []])
  | .gtfo t => [[t]]
  | .gimmeh n => [n.gimmehToken :: n.variableAccess.toks]
  | .expression e => [e.toks]
  | .astError _ => []
  | .kThxBye t => [[t]]

/-- The statements of the cases of a switch. -/
def printOmgs : List WtfOmg → List (List Token)
  | [] => []
  | .mk t e b :: rest => (t :: e.toks) :: (printBlock b ++ printOmgs rest)

/-- The statements of the default case of a switch. -/
def printOmgWtf : Option WtfOmgWtf → List (List Token)
  | none => []
  | some (.mk t b) => [t] :: printBlock b

/-- The statements of a `YA RLY` part. -/
def printYaRly : Option YaRly → List (List Token)
  | none => []
  | some (.mk t b) => [t] :: printBlock b

/-- The statements of `MEBBE` parts. -/
def printMebbes : List Mebbe → List (List Token)
  | [] => []
  | .mk t e b :: rest => (t :: e.toks) :: (printBlock b ++ printMebbes rest)

/-- The statements of a `NO WAI` part. -/
def printNoWai : Option NoWai → List (List Token)
  | none => []
  | some (.mk t b) => [t] :: printBlock b

/-- The statements of a block; an empty block is an empty statement. -/
def printBlock : List Node → List (List Token)
  | [] => [[]]
  | node :: rest => node.print ++ printNodes rest

/-- The statements of any number of nodes. -/
def printNodes : List Node → List (List Token)
  | [] => []
  | node :: rest => node.print ++ printNodes rest

end

/-- What a node without errors has to meet besides `Node.WF`: an operation that is not closed by `MKAY` stands only at
the end of a statement, and the version after `HAI` has no separators. -/
def Node.Shape : Node → Prop
  | .visible n => (∀ e ∈ n.expressions.dropLast, ¬ e.Open) ∧
      (n.exclamationMark ≠ none → ∀ e ∈ n.expressions, ¬ e.Open)
  | .iIz n => ∀ e ∈ n.arguments, ¬ e.Open
  | .hai n => ∀ t ∈ n.version, t.tokenType ≠ .comma ∧ t.tokenType ≠ .ellipsis
  | .astError _ => False
  | _ => True

/-- The tree is well formed and without errors. -/
def CompleteTree (nodes : Block) : Prop := wfBlock nodes ∧ ∀ node ∈ allNodes nodes, node.Shape

end Lol
