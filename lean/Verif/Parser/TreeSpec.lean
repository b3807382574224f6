import Verif.Parser.StmtSpec

/-!
# Nodes and expressions inside a tree (specification)
-/

namespace Lol

mutual

/-- The node and all nodes inside it. -/
def Node.nodes : Node → List Node
  | .iHasA n => [.iHasA n]
  | .hai n => [.hai n]
  | .imInYr t label op cond body endLabel => .imInYr t label op cond body endLabel :: allNodes body
  | .bukkitSetSlot n => [.bukkitSetSlot n]
  | .variableAssignment n => [.variableAssignment n]
  | .visible n => [.visible n]
  | .foundYr n => [.foundYr n]
  | .wtf t omgs omgWtf => .wtf t omgs omgWtf :: (nodesOmgs omgs ++ nodesOmgWtf omgWtf)
  | .oRly t yaRly noWai mebbes =>
    .oRly t yaRly noWai mebbes :: (nodesYaRly yaRly ++ (nodesMebbes mebbes ++ nodesNoWai noWai))
  | .iIz n => [.iIz n]
  | .howIzI t name params body => .howIzI t name params body :: allNodes body
  | .gtfo t => [.gtfo t]
  | .gimmeh n => [.gimmeh n]
  | .expression e => [.expression e]
  | .astError e => [.astError e]
  | .kThxBye t => [.kThxBye t]

/-- All nodes inside the cases of a switch. -/
def nodesOmgs : List WtfOmg → List Node
  | [] => []
  | .mk _ _ b :: rest => allNodes b ++ nodesOmgs rest

/-- All nodes inside the default case of a switch. -/
def nodesOmgWtf : Option WtfOmgWtf → List Node
  | none => []
  | some (.mk _ b) => allNodes b

/-- All nodes inside a `YA RLY` part. -/
def nodesYaRly : Option YaRly → List Node
  | none => []
  | some (.mk _ b) => allNodes b

/-- All nodes inside `MEBBE` parts. -/
def nodesMebbes : List Mebbe → List Node
  | [] => []
  | .mk _ _ b :: rest => allNodes b ++ nodesMebbes rest

/-- All nodes inside a `NO WAI` part. -/
def nodesNoWai : Option NoWai → List Node
  | none => []
  | some (.mk _ b) => allNodes b

/-- All nodes inside a block, at any depth. -/
def allNodes : List Node → List Node
  | [] => []
  | node :: rest => node.nodes ++ allNodes rest

end

/-- The blocks of the node itself, not those of a node inside it, in the order of the source. -/
def Node.blocks : Node → List Block
  | .imInYr _ _ _ _ body _ => [body]
  | .wtf _ omgs omgWtf => (omgs.map fun | .mk _ _ b => b) ++ omgWtf.toList.map fun | .mk _ b => b
  | .oRly _ yaRly noWai mebbes => (yaRly.toList.map fun | .mk _ b => b) ++
      ((mebbes.map fun | .mk _ _ b => b) ++ noWai.toList.map fun | .mk _ b => b)
  | .howIzI _ _ _ body => [body]
  | .iHasA _ | .hai _ | .bukkitSetSlot _ | .variableAssignment _ | .visible _ | .foundYr _ | .iIz _ | .gtfo _
  | .gimmeh _ | .expression _ | .astError _ | .kThxBye _ => []

/-- `BlockIn b root`: the block `b` is `root` or stands somewhere inside it, at any depth. -/
inductive BlockIn (b : Block) : Block → Prop
  | self : BlockIn b b
  | inside {root node inner} : node ∈ root → inner ∈ Node.blocks node → BlockIn b inner → BlockIn b root

mutual

/-- The expression and all expressions inside it. -/
def Expr.subs : Expr → List Expr
  | .value v => [.value v]
  | .unary op e => .unary op e :: e.subs
  | .binary op l an r => .binary op l an r :: (l.subs ++ r.subs)
  | .nary op es mkay => .nary op es mkay :: subsOperands es

/-- All expressions inside operands. -/
def subsOperands : List Operand → List Expr
  | [] => []
  | .mk e _ :: es => e.subs ++ subsOperands es

end

/-- The expressions that belong to the node itself, not to a node inside it. -/
def Node.exprs : Node → List Expr
  | .iHasA n => n.initialValue.toList.flatMap fun
    | .expression e => [e]
    | .type _ => []
  | .imInYr _ _ _ cond _ _ => cond.toList.map fun
    | .til e => e
    | .wile e => e
  | .bukkitSetSlot n => [n.value]
  | .variableAssignment n => [n.expression]
  | .visible n => n.expressions
  | .foundYr n => [n.expression]
  | .wtf _ omgs _ => omgs.map fun | .mk _ e _ => e
  | .oRly _ _ _ mebbes => mebbes.map fun | .mk _ e _ => e
  | .iIz n => n.arguments
  | .expression e => [e]
  | .hai _ | .howIzI _ _ _ _ | .gtfo _ | .gimmeh _ | .astError _ | .kThxBye _ => []

/-- The variable accesses that belong to the node itself. -/
def Node.accesses : Node → List VariableAccess
  | .imInYr _ _ op _ _ _ => op.toList.map (·.operand)
  | .bukkitSetSlot n => [n.bukkit]
  | .variableAssignment n => [n.variableAccess]
  | .iIz n => [n.name]
  | .gimmeh n => [n.variableAccess]
  | .iHasA _ | .hai _ | .visible _ | .foundYr _ | .wtf _ _ _ | .oRly _ _ _ _ | .howIzI _ _ _ _ | .gtfo _
  | .expression _ | .astError _ | .kThxBye _ => []

end Lol
