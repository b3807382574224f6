import Verif.Parser.Stmt

/-!
# `get_inner_block` and `iter_errors`
-/

namespace Lol

/-- The field `block`, `src/parser/statements/wtf.rs:15` -/
def WtfOmg.block : WtfOmg → Block
  | .mk _ _ b => b

/-- The field `block`, `src/parser/statements/wtf.rs:21` -/
def WtfOmgWtf.block : WtfOmgWtf → Block
  | .mk _ b => b

/-- The field `block`, `src/parser/statements/o_rly.rs:12` -/
def YaRly.block : YaRly → Block
  | .mk _ b => b

/-- The field `block`, `src/parser/statements/o_rly.rs:18` -/
def NoWai.block : NoWai → Block
  | .mk _ b => b

/-- The field `block`, `src/parser/statements/o_rly.rs:25` -/
def Mebbe.block : Mebbe → Block
  | .mk _ _ b => b

/-- `Node::get_inner_block`, `src/parser/blocks.rs:48-76`. `vec.push` is an append at the end. -/
def Node.getInnerBlock : Node → Option (List Block)
  | .wtf _ omg omgWtf =>
    let vec := omg.map (·.block)
    let vec := match omgWtf with
      | some o => vec ++ [o.block]
      | none => vec
    some vec
  | .oRly _ ifTrue ifFalse mebbes =>
    let vec := []
    let vec := match ifTrue with
      | some y => vec ++ [y.block]
      | none => vec
    let vec := mebbes.foldl (fun vec m => vec ++ [m.block]) vec
    let vec := match ifFalse with
      | some n => vec ++ [n.block]
      | none => vec
    some vec
  | .imInYr _ _ _ _ codeBlock _ => some [codeBlock]
  | .howIzI _ _ _ body => some [body]
  | _ => none

/-- `ASTBlockErrorIterator`, `src/parser/blocks.rs:31-35` -/
structure ErrorIter where
  blocks : List Block
  currentBlockIndex : Nat
  currentBlockStatement : Nat

/-- `ASTBlockErrorIterator::new`, `src/parser/blocks.rs:38-44`, and `ASTBlock::iter_errors`,
`blocks.rs:118-120` -/
def iterErrors (b : Block) : ErrorIter := { blocks := [b], currentBlockIndex := 0, currentBlockStatement := 0 }

/-- `ASTErrorOrBlock`, `src/parser/blocks.rs:79-82` -/
inductive ErrorOrBlock where
  | error (e : ASTError)
  | block (bs : List Block)

/-- `node.get_inner_block().map(…).or_else(…)`, `src/parser/blocks.rs:99-104` -/
def Node.errorOrBlock (node : Node) : Option ErrorOrBlock :=
  match node.getInnerBlock with
  | some bs => some (.block bs)
  | none =>
    match node with
    | .astError e => some (.error e)
    | _ => none

/-- `.find_map(|node| { self.current_block_statement += 1; … })`, `src/parser/blocks.rs:97-105`, with the counter
as argument and result -/
def findInNodes : List Node → Nat → Option ErrorOrBlock × Nat
  | [], k => (none, k)
  | node :: rest, k =>
    match node.errorOrBlock with
    | some x => (some x, k + 1)
    | none => findInNodes rest (k + 1)

/-- `.find_map(|block| …)`, `src/parser/blocks.rs:92-110`, with the counters `current_block_index` and
`current_block_statement` as arguments and results -/
def findInBlocks : List Block → Nat → Nat → Option ErrorOrBlock × Nat × Nat
  | [], i, k => (none, i, k)
  | b :: rest, i, k =>
    match findInNodes (b.drop k) k with
    | (some x, k) => (some x, i, k)
    | (none, k) => findInBlocks rest (i + 1) k

/-- `ASTBlockErrorIterator::next`, `src/parser/blocks.rs:87-113`: the search and then `todo!()`. -/
def ErrorIter.next (it : ErrorIter) : Out (Option ASTError × ErrorIter) :=
  let _blockNode := findInBlocks (it.blocks.drop it.currentBlockIndex) it.currentBlockIndex it.currentBlockStatement
  .panic .todoIterErrors

end Lol
