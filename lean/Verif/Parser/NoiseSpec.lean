import Verif.Parser.TreeSpec

/-!
# Words that may be left out (specification)

`dropAn p` leaves out of a statement the `AN`s chosen by `p`, except those before a `YR`; `Expr.dropAn p` is the same
expression without these tokens. `dropMkay p` leaves out a last `MKAY` chosen by `p`, except the one of `I IZ`;
`Expr.dropMkay p` is the same expression without it.
-/

namespace Lol

/-! ## `AN` -/

/-- The tokens begin with `YR`. -/
def BeginsWithYr (ts : List Token) : Prop := ∃ t r, ts = t :: r ∧ t.Is .YR

instance (ts : List Token) : Decidable (BeginsWithYr ts) :=
  match ts with
  | [] => isFalse (by rintro ⟨t, r, h, -⟩; cases h)
  | t :: r =>
    if h : t.Is .YR then isTrue ⟨t, r, rfl, h⟩
    else isFalse (by rintro ⟨t', r', h1, h2⟩; cases h1; exact h h2)

/-- The tokens of a statement without the `AN`s chosen by `p`; an `AN` before a `YR` stays. -/
def dropAn (p : Token → Bool) : List Token → List Token
  | [] => []
  | t :: rest => if t.Is .AN ∧ p t = true ∧ ¬ BeginsWithYr rest then dropAn p rest else t :: dropAn p rest

mutual

/-- The expression without the `AN`s chosen by `p`. -/
def Expr.dropAn (p : Token → Bool) : Expr → Expr
  | .value v => .value v
  | .unary op e => .unary op (e.dropAn p)
  | .binary op l an r => .binary op (l.dropAn p) (an.filter (!p ·)) (r.dropAn p)
  | .nary op es mkay => .nary op (dropAnOperands p es) mkay

/-- The operands without the `AN`s chosen by `p`. -/
def dropAnOperands (p : Token → Bool) : List Operand → List Operand
  | [] => []
  | .mk e an :: es => .mk (e.dropAn p) (an.filter (!p ·)) :: dropAnOperands p es

end

/-! ## `MKAY` -/

/-- The tokens of a statement without a last `MKAY`, if it is chosen by `p` and the statement does not begin with
`I IZ` or `HAI`. -/
def dropMkay (p : Token → Bool) : List Token → List Token
  | [] => []
  | t :: r =>
    match (t :: r).getLast? with
    | some m => if m.Is .MKAY ∧ p m = true ∧ ¬ t.Is .I_IZ ∧ ¬ t.Is .HAI then (t :: r).dropLast else t :: r
    | none => t :: r

mutual

/-- The expression without the `MKAY` at its end, if it is chosen by `p`. -/
def Expr.dropMkay (p : Token → Bool) : Expr → Expr
  | .value v => .value v
  | .unary op e => .unary op (e.dropMkay p)
  | .binary op l an r => .binary op l an (r.dropMkay p)
  | .nary op es (some mkay) => .nary op es (if p mkay then none else some mkay)
  | .nary op es none => .nary op (dropMkayOperands p es) none

/-- The operands, the last one without the `MKAY` at its end. -/
def dropMkayOperands (p : Token → Bool) : List Operand → List Operand
  | [] => []
  | [.mk e none] => [.mk (e.dropMkay p) none]
  | [.mk e (some an)] => [.mk e (some an)]
  | o :: o' :: es => o :: dropMkayOperands p (o' :: es)

end

/-- Expressions one after the other, the last one without the `MKAY` at its end. -/
def dropMkayLast (p : Token → Bool) : List Expr → List Expr
  | [] => []
  | [e] => [e.dropMkay p]
  | e :: e' :: es => e :: dropMkayLast p (e' :: es)

/-! ## Trees -/

/-- What is done to the parts of a tree: to the expression at the end of a statement, to the expressions of `VISIBLE`
(with or without `!`), to the arguments of `I IZ` and to the version after `HAI`. -/
structure Retouch where
  expr : Expr → Expr
  shown : Option Token → List Expr → List Expr
  args : List Expr → List Expr
  version : List Token → List Token

/-- A loop condition with its expression retouched. -/
def LoopCondition.retouch (R : Retouch) : LoopCondition → LoopCondition
  | .til e => .til (R.expr e)
  | .wile e => .wile (R.expr e)

mutual

/-- The node with its parts, and those of the nodes inside it, retouched. -/
def Node.retouch (R : Retouch) : Node → Node
  | .iHasA ⟨t, i, some (.expression e)⟩ => .iHasA ⟨t, i, some (.expression (R.expr e))⟩
  | .iHasA ⟨t, i, some (.type ty)⟩ => .iHasA ⟨t, i, some (.type ty)⟩
  | .iHasA ⟨t, i, none⟩ => .iHasA ⟨t, i, none⟩
  | .hai n => .hai ⟨n.haiToken, R.version n.version⟩
  | .imInYr t label op cond body endLabel =>
    .imInYr t label op (cond.map (LoopCondition.retouch R)) (retouchBlock R body) endLabel
  | .bukkitSetSlot n => .bukkitSetSlot ⟨n.bukkit, n.slotName, R.expr n.value⟩
  | .variableAssignment n => .variableAssignment ⟨n.variableAccess, R.expr n.expression, n.rToken⟩
  | .visible n => .visible ⟨n.visibleToken, R.shown n.exclamationMark n.expressions, n.exclamationMark⟩
  | .foundYr n => .foundYr ⟨n.foundYrToken, R.expr n.expression⟩
  | .wtf t omgs omgWtf => .wtf t (retouchOmgs R omgs) (retouchOmgWtf R omgWtf)
  | .oRly t yaRly noWai mebbes => .oRly t (retouchYaRly R yaRly) (retouchNoWai R noWai) (retouchMebbes R mebbes)
  | .iIz n => .iIz ⟨n.iIzToken, n.name, R.args n.arguments⟩
  | .howIzI t name params body => .howIzI t name params (retouchBlock R body)
  | .gtfo t => .gtfo t
  | .gimmeh n => .gimmeh n
  | .expression e => .expression (R.expr e)
  | .astError e => .astError e
  | .kThxBye t => .kThxBye t

/-- The same for the cases of a switch. -/
def retouchOmgs (R : Retouch) : List WtfOmg → List WtfOmg
  | [] => []
  | .mk t e b :: rest => .mk t (R.expr e) (retouchBlock R b) :: retouchOmgs R rest

/-- The same for the default case of a switch. -/
def retouchOmgWtf (R : Retouch) : Option WtfOmgWtf → Option WtfOmgWtf
  | none => none
  | some (.mk t b) => some (.mk t (retouchBlock R b))

/-- The same for a `YA RLY` part. -/
def retouchYaRly (R : Retouch) : Option YaRly → Option YaRly
  | none => none
  | some (.mk t b) => some (.mk t (retouchBlock R b))

/-- The same for `MEBBE` parts. -/
def retouchMebbes (R : Retouch) : List Mebbe → List Mebbe
  | [] => []
  | .mk t e b :: rest => .mk t (R.expr e) (retouchBlock R b) :: retouchMebbes R rest

/-- The same for a `NO WAI` part. -/
def retouchNoWai (R : Retouch) : Option NoWai → Option NoWai
  | none => none
  | some (.mk t b) => some (.mk t (retouchBlock R b))

/-- The same for a block. -/
def retouchBlock (R : Retouch) : List Node → List Node
  | [] => []
  | node :: rest => node.retouch R :: retouchBlock R rest

end

/-- All `AN`s chosen by `p` are left out of the expressions (and of the version after `HAI`). -/
def withoutAn (p : Token → Bool) : Retouch where
  expr := Expr.dropAn p
  shown := fun _ es => es.map (Expr.dropAn p)
  args := fun es => es.map (Expr.dropAn p)
  version := Lol.dropAn p

/-- A `MKAY` chosen by `p` is left out of the expression at the end of a statement. -/
def withoutMkay (p : Token → Bool) : Retouch where
  expr := Expr.dropMkay p
  shown := fun ex es => if ex.isSome then es else dropMkayLast p es
  args := fun es => es
  version := fun ts => ts

end Lol
