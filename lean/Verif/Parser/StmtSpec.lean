import Verif.Parser.ExprSpec

/-!
# The grammar of statements and programs (specification)

A program is a list of statements, each a list of tokens (see `Verif/Parser/Split.lean`).
-/

namespace Lol

/-! ## Simple statements -/

/-- The keyword that names a type. -/
def ASTType.keyword : ASTType → Keyword
  | bukkit _ => .BUKKIT
  | numbr _ => .NUMBR
  | numbar _ => .NUMBAR
  | yarn _ => .YARN
  | troof _ => .TROOF
  | noob _ => .NOOB

/-- The token of a type. -/
def ASTType.token : ASTType → Token
  | bukkit t => t
  | numbr t => t
  | numbar t => t
  | yarn t => t
  | troof t => t
  | noob t => t

/-- The expression is the literal `NOOB`. -/
def Expr.IsNoob (e : Expr) : Prop := ∃ t, e = .value (.literal t) ∧ t.Is .NOOB

/-- Expressions that follow each other: each is followed by tokens that cannot extend it. -/
def FollowAll : List Expr → (rest : List Token) → Prop
  | [], _ => True
  | e :: es, rest => e.WF ∧ e.Follow (es.flatMap Expr.toks ++ rest) ∧ FollowAll es rest

/-- The arguments of `I IZ`: `YR` and an expression, any number of times, separated by `AN` (`AN` may also follow
the last one). `rest` follows them. -/
inductive ArgsG (rest : List Token) : List Token → List Expr → Prop
  | nil : ArgsG rest [] []
  | one {yr e} : yr.Is .YR → e.WF → e.Follow rest → ArgsG rest (yr :: e.toks) [e]
  | cons {yr e an ts es} : yr.Is .YR → e.WF → ¬ e.Open → an.Is .AN → ArgsG rest ts es →
      ArgsG rest (yr :: (e.toks ++ an :: ts)) (e :: es)

/-- The parameters of `HOW IZ I`: `YR` and an identifier, any number of times, separated by `AN` (`AN` may also
follow the last one). -/
inductive ParamsG : List Token → List Identifier → Prop
  | nil : ParamsG [] []
  | one {yr i} : yr.Is .YR → i.WF → ParamsG (yr :: i.toks) [i]
  | cons {yr i an ts is} : yr.Is .YR → i.WF → an.Is .AN → ParamsG ts is →
      ParamsG (yr :: (i.toks ++ an :: ts)) (i :: is)

/-- Simple statements: `SimpleG rest ts node` says that the tokens `ts` are the statement `node` when the tokens
`rest` follow in the same statement. -/
inductive SimpleG (rest : List Token) : List Token → Node → Prop
  /-- `I HAS A name` -/
  | declaration {t i} : t.Is .I_HAS_A → i.WF → rest = [] → SimpleG rest (t :: i.toks) (.iHasA ⟨t, i, none⟩)
  /-- `I HAS A name ITZ type` -/
  | declarationType {t i itz ty} : t.Is .I_HAS_A → i.WF → itz.Is .ITZ → ty.token.Is ty.keyword →
      SimpleG rest (t :: (i.toks ++ [itz, ty.token])) (.iHasA ⟨t, i, some (.type ty)⟩)
  /-- `I HAS A name ITZ expression` -/
  | declarationExpr {t i itz e} : t.Is .I_HAS_A → i.WF → itz.Is .ITZ → e.WF → e.Follow rest → ¬ e.IsNoob →
      SimpleG rest (t :: (i.toks ++ itz :: e.toks)) (.iHasA ⟨t, i, some (.expression e)⟩)
  /-- `access R expression` -/
  | assignment {v r e} : v.WF → r.Is .R → e.WF → e.Follow rest →
      SimpleG rest (v.toks ++ r :: e.toks) (.variableAssignment ⟨v, e, r⟩)
  /-- `access HAS A name ITZ expression` -/
  | setSlot {v h i itz e} : v.WF → h.Is .HAS_A → i.WF → itz.Is .ITZ → e.WF → e.Follow rest →
      SimpleG rest (v.toks ++ h :: (i.toks ++ itz :: e.toks)) (.bukkitSetSlot ⟨v, i, e⟩)
  /-- `access` alone -/
  | access {v} : v.WF → rest = [] → SimpleG rest v.toks (.expression (.value (.variableAccess v)))
  /-- any other expression -/
  | expression {e} : e.WF → e.Follow rest → (∀ v, e ≠ .value (.variableAccess v)) →
      SimpleG rest e.toks (.expression e)
  /-- `VISIBLE expressions`, with `!` or at the end of the statement -/
  | visible {t es ex} : t.Is .VISIBLE → FollowAll es (ex.toList ++ rest) →
      (∀ x ∈ ex, x.tokenType = .exclamationMark) → (ex = none → rest = []) →
      SimpleG rest (t :: (es.flatMap Expr.toks ++ ex.toList)) (.visible ⟨t, es, ex⟩)
  /-- `GIMMEH access` -/
  | gimmeh {t v} : t.Is .GIMMEH → v.WF → NoSlot rest → SimpleG rest (t :: v.toks) (.gimmeh ⟨t, v⟩)
  /-- `FOUND YR expression` -/
  | foundYr {t e} : t.Is .FOUND_YR → e.WF → e.Follow rest → SimpleG rest (t :: e.toks) (.foundYr ⟨t, e⟩)
  /-- `I IZ access arguments MKAY` -/
  | call {t v ts es mkay} : t.Is .I_IZ → v.WF → ArgsG (mkay :: rest) ts es → mkay.Is .MKAY →
      SimpleG rest (t :: (v.toks ++ (ts ++ [mkay]))) (.iIz ⟨t, v, es⟩)
  /-- `GTFO` -/
  | gtfo {t} : t.Is .GTFO → SimpleG rest [t] (.gtfo t)
  /-- `KTHXBYE` -/
  | kThxBye {t} : t.Is .KTHXBYE → SimpleG rest [t] (.kThxBye t)

/-! ## Programs -/

/-- The keyword of a loop operation. -/
def LoopOperation.keyword : LoopOperation → Keyword
  | uppin _ => .UPPIN
  | nerfin _ => .NERFIN

/-- The `UPPIN`/`NERFIN` part of a loop header. -/
inductive IterationG : List Token → Option LoopIterationOperation → Prop
  | none : IterationG [] none
  | some {op yr v} : op.token.Is op.keyword → yr.Is .YR → v.WF →
      IterationG (op.token :: yr :: v.toks) (some ⟨op, v⟩)

/-- The `TIL`/`WILE` part of a loop header, at the end of the statement. -/
inductive ConditionG : List Token → Option LoopCondition → Prop
  | none : ConditionG [] none
  | til {t e} : t.Is .TIL → e.WF → ConditionG (t :: e.toks) (some (.til e))
  | wile {t e} : t.Is .WILE → e.WF → ConditionG (t :: e.toks) (some (.wile e))

/-- The token is `?`. -/
def Token.IsQuestion (t : Token) : Prop := t.tokenType = .symbol ['?']

mutual

/-- `NodeG stmts node`: the statements `stmts` are the node. A version, a function and a switch are followed by an
empty statement. -/
inductive NodeG : List (List Token) → Node → Prop
  | simple {ts node} : SimpleG [] ts node → NodeG [ts] node
  | hai {t version} : t.Is .HAI → NodeG [t :: version, []] (.hai ⟨t, version⟩)
  | loop {t label ops conds op cond body nodes c endLabel} : t.Is .IM_IN_YR → label.IsIdent →
      IterationG ops op → ConditionG conds cond → BlockG body nodes → c.Is .IM_OUTTA_YR → endLabel.IsIdent →
      NodeG ((t :: label :: (ops ++ conds)) :: (body ++ [[c, endLabel]]))
        (.imInYr t label op cond nodes endLabel)
  | function {t i ps params body nodes c} : t.Is .HOW_IZ_I → i.WF → ParamsG ps params → BlockG body nodes →
      c.Is .IF_U_SAY_SO →
      NodeG ((t :: (i.toks ++ ps)) :: (body ++ [[c], []])) (.howIzI t i params nodes)
  | switch {t q cases omgs dflt omgWtf c} : t.Is .WTF → q.IsQuestion → OmgsG cases omgs → OmgWtfG dflt omgWtf →
      c.Is .OIC → NodeG ([t, q] :: (cases ++ (dflt ++ [[c], []]))) (.wtf t omgs omgWtf)
  | conditional {t q yes yaRly maybe mebbes no noWai c} : t.Is .O_RLY → q.IsQuestion → YaRlyG yes yaRly →
      MebbesG maybe mebbes → NoWaiG no noWai → c.Is .OIC →
      NodeG ([t, q] :: (yes ++ (maybe ++ (no ++ [[c]])))) (.oRly t yaRly noWai mebbes)

/-- The cases of a switch. -/
inductive OmgsG : List (List Token) → List WtfOmg → Prop
  | nil : OmgsG [] []
  | cons {t e body nodes rest omgs} : t.Is .OMG → e.WF → BlockG body nodes → OmgsG rest omgs →
      OmgsG ((t :: e.toks) :: (body ++ rest)) (.mk t e nodes :: omgs)

/-- The default case of a switch. -/
inductive OmgWtfG : List (List Token) → Option WtfOmgWtf → Prop
  | none : OmgWtfG [] none
  | some {t body nodes} : t.Is .OMGWTF → BlockG body nodes → OmgWtfG ([t] :: body) (some (.mk t nodes))

/-- The `YA RLY` part of a conditional. -/
inductive YaRlyG : List (List Token) → Option YaRly → Prop
  | none : YaRlyG [] none
  | some {t body nodes} : t.Is .YA_RLY → BlockG body nodes → YaRlyG ([t] :: body) (some (.mk t nodes))

/-- The `MEBBE` parts of a conditional. -/
inductive MebbesG : List (List Token) → List Mebbe → Prop
  | nil : MebbesG [] []
  | cons {t e body nodes rest mebbes} : t.Is .MEBBE → e.WF → BlockG body nodes → MebbesG rest mebbes →
      MebbesG ((t :: e.toks) :: (body ++ rest)) (.mk t e nodes :: mebbes)

/-- The `NO WAI` part of a conditional. -/
inductive NoWaiG : List (List Token) → Option NoWai → Prop
  | none : NoWaiG [] none
  | some {t body nodes} : t.Is .NO_WAI → BlockG body nodes → NoWaiG ([t] :: body) (some (.mk t nodes))

/-- `BlockG stmts nodes`: a block consists of one or more nodes, or of an empty statement and any number of
nodes. -/
inductive BlockG : List (List Token) → List Node → Prop
  | nodes {a node rest nodes} : NodeG a node → NodesG rest nodes → BlockG (a ++ rest) (node :: nodes)
  | skip {rest nodes} : NodesG rest nodes → BlockG ([] :: rest) nodes

/-- Any number of nodes. -/
inductive NodesG : List (List Token) → List Node → Prop
  | nil : NodesG [] []
  | cons {a node rest nodes} : NodeG a node → NodesG rest nodes → NodesG (a ++ rest) (node :: nodes)

end

/-! ## Tokens held by the tree, errors in the tree -/

/-- The tokens held by an error. -/
def ASTError.toks : ASTError → List Token
  | .unexpectedToken t => [t]
  | .tooManyTokens ts => ts
  | .iHasA (.invalidIdentifier t) => [t]
  | .iHasA (.missingIdentifier t) => [t]
  | .iHasA (.expectedInitialValue t) => [t]
  | .variableAssignment (.missingR t) => [t]
  | .variableAssignment (.expectedValue t) => [t]
  | .expression (.missingOperands t) => [t]
  | .missingToken t => [t]
  | .oRly (.missingQuestionMark t) => [t]
  | .oRly (.missingMebbeExpression t) => [t]
  | .missingBlockClosingToken t => [t]
  | .howIsI (.missingNameIdentifier t) => [t]
  | .imInYr (.missingYr t) => [t]
  | .imInYr (.missingStartLabel t) => [t]
  | .imInYr (.invalidStartLabel t) => [t]
  | .imInYr (.missingEndLabel t) => [t]
  | .imInYr (.invalidEndLabel t) => [t]
  | .imInYr (.missingImOuttaYr t) => [t]
  | .imInYr (.invalidOperation t) => [t]
  | .imInYr (.missingOperand t) => [t]
  | .imInYr (.invalidConditional t) => [t]
  | .imInYr (.missingConditionalExpression t) => [t]
  | .iIz (.missingName t) => [t]
  | .iIz (.missingArgument t) => [t]
  | .iIz (.missingMkay t) => [t]

/-- The tokens of an initial value. -/
def IHasAInitialValue.toks : IHasAInitialValue → List Token
  | .expression e => e.toks
  | .type t => [t.token]

/-- The tokens of a loop condition. -/
def LoopCondition.toks : LoopCondition → List Token
  | .til e => e.toks
  | .wile e => e.toks

/-- The tokens of a loop operation. -/
def LoopIterationOperation.toks (o : LoopIterationOperation) : List Token := o.operation.token :: o.operand.toks

mutual

/-- The tokens held by a node, in the order of the source. -/
def Node.toks : Node → List Token
  | .iHasA n => n.iHasAToken :: (n.identifier.toks ++ n.initialValue.toList.flatMap (·.toks))
  | .hai n => n.haiToken :: n.version
  | .imInYr t label op cond body endLabel =>
    t :: label :: (op.toList.flatMap (·.toks) ++ (cond.toList.flatMap (·.toks) ++ (toksBlock body ++ [endLabel])))
  | .bukkitSetSlot n => n.bukkit.toks ++ (n.slotName.toks ++ n.value.toks)
  | .variableAssignment n => n.variableAccess.toks ++ n.rToken :: n.expression.toks
  | .visible n => n.visibleToken :: (n.expressions.flatMap (·.toks) ++ n.exclamationMark.toList)
  | .foundYr n => n.foundYrToken :: n.expression.toks
  | .wtf t omgs omgWtf => t :: (toksOmgs omgs ++ toksOmgWtf omgWtf)
  | .oRly t yaRly noWai mebbes => t :: (toksYaRly yaRly ++ (toksMebbes mebbes ++ toksNoWai noWai))
  | .iIz n => n.iIzToken :: (n.name.toks ++ n.arguments.flatMap (·.toks))
  | .howIzI t name params body => t :: (name.toks ++ (params.flatMap (·.toks) ++ toksBlock body))
  | .gtfo t => [t]
  | .gimmeh n => n.gimmehToken :: n.variableAccess.toks
  | .expression e => e.toks
  | .astError e => e.toks
  | .kThxBye t => [t]

/-- The tokens held by the cases of a switch. -/
def toksOmgs : List WtfOmg → List Token
  | [] => []
  | .mk t e b :: rest => t :: (e.toks ++ (toksBlock b ++ toksOmgs rest))

/-- The tokens held by the default case of a switch. -/
def toksOmgWtf : Option WtfOmgWtf → List Token
  | none => []
  | some (.mk t b) => t :: toksBlock b

/-- The tokens held by a `YA RLY` part. -/
def toksYaRly : Option YaRly → List Token
  | none => []
  | some (.mk t b) => t :: toksBlock b

/-- The tokens held by `MEBBE` parts. -/
def toksMebbes : List Mebbe → List Token
  | [] => []
  | .mk t e b :: rest => t :: (e.toks ++ (toksBlock b ++ toksMebbes rest))

/-- The tokens held by a `NO WAI` part. -/
def toksNoWai : Option NoWai → List Token
  | none => []
  | some (.mk t b) => t :: toksBlock b

/-- The tokens held by a block. -/
def toksBlock : List Node → List Token
  | [] => []
  | node :: rest => node.toks ++ toksBlock rest

end

mutual

/-- There is no error node in the node. -/
def Node.ErrorFree : Node → Prop
  | .astError _ => False
  | .imInYr _ _ _ _ body _ => errorFreeBlock body
  | .wtf _ omgs omgWtf => errorFreeOmgs omgs ∧ errorFreeOmgWtf omgWtf
  | .oRly _ yaRly noWai mebbes => errorFreeYaRly yaRly ∧ errorFreeMebbes mebbes ∧ errorFreeNoWai noWai
  | .howIzI _ _ _ body => errorFreeBlock body
  | .iHasA _ | .hai _ | .bukkitSetSlot _ | .variableAssignment _ | .visible _ | .foundYr _ | .iIz _ | .gtfo _
  | .gimmeh _ | .expression _ | .kThxBye _ => True

/-- The same for the cases of a switch. -/
def errorFreeOmgs : List WtfOmg → Prop
  | [] => True
  | .mk _ _ b :: rest => errorFreeBlock b ∧ errorFreeOmgs rest

/-- The same for the default case of a switch. -/
def errorFreeOmgWtf : Option WtfOmgWtf → Prop
  | none => True
  | some (.mk _ b) => errorFreeBlock b

/-- The same for a `YA RLY` part. -/
def errorFreeYaRly : Option YaRly → Prop
  | none => True
  | some (.mk _ b) => errorFreeBlock b

/-- The same for `MEBBE` parts. -/
def errorFreeMebbes : List Mebbe → Prop
  | [] => True
  | .mk _ _ b :: rest => errorFreeBlock b ∧ errorFreeMebbes rest

/-- The same for a `NO WAI` part. -/
def errorFreeNoWai : Option NoWai → Prop
  | none => True
  | some (.mk _ b) => errorFreeBlock b

/-- The same for a block. -/
def errorFreeBlock : List Node → Prop
  | [] => True
  | node :: rest => node.ErrorFree ∧ errorFreeBlock rest

end

/-! ## Well formed trees, errors allowed -/

/-- A type keyword, or an expression other than the literal `NOOB`. -/
def IHasAInitialValue.WF : IHasAInitialValue → Prop
  | .expression e => e.WF ∧ ¬ e.IsNoob
  | .type t => t.token.Is t.keyword

/-- The condition is an expression. -/
def LoopCondition.WF : LoopCondition → Prop
  | .til e => e.WF
  | .wile e => e.WF

/-- `UPPIN` or `NERFIN` and a variable access. -/
def LoopIterationOperation.WF (o : LoopIterationOperation) : Prop :=
  o.operation.token.Is o.operation.keyword ∧ o.operand.WF

mutual

/-- Every token held by the node has the type that its place asks for. -/
def Node.WF : Node → Prop
  | .iHasA n => n.iHasAToken.Is .I_HAS_A ∧ n.identifier.WF ∧ ∀ v ∈ n.initialValue, v.WF
  | .hai n => n.haiToken.Is .HAI
  | .imInYr t label op cond body endLabel => t.Is .IM_IN_YR ∧ label.IsIdent ∧ (∀ o ∈ op, o.WF) ∧
      (∀ c ∈ cond, c.WF) ∧ wfBlock body ∧ endLabel.IsIdent
  | .bukkitSetSlot n => n.bukkit.WF ∧ n.slotName.WF ∧ n.value.WF
  | .variableAssignment n => n.variableAccess.WF ∧ n.rToken.Is .R ∧ n.expression.WF
  | .visible n => n.visibleToken.Is .VISIBLE ∧ (∀ e ∈ n.expressions, e.WF) ∧
      ∀ t ∈ n.exclamationMark, t.tokenType = .exclamationMark
  | .foundYr n => n.foundYrToken.Is .FOUND_YR ∧ n.expression.WF
  | .wtf t omgs omgWtf => t.Is .WTF ∧ wfOmgs omgs ∧ wfOmgWtf omgWtf
  | .oRly t yaRly noWai mebbes => t.Is .O_RLY ∧ wfYaRly yaRly ∧ wfMebbes mebbes ∧ wfNoWai noWai
  | .iIz n => n.iIzToken.Is .I_IZ ∧ n.name.WF ∧ ∀ e ∈ n.arguments, e.WF
  | .howIzI t name params body => t.Is .HOW_IZ_I ∧ name.WF ∧ (∀ i ∈ params, i.WF) ∧ wfBlock body
  | .gtfo t => t.Is .GTFO
  | .gimmeh n => n.gimmehToken.Is .GIMMEH ∧ n.variableAccess.WF
  | .expression e => e.WF
  | .astError _ => True
  | .kThxBye t => t.Is .KTHXBYE

/-- The same for the cases of a switch. -/
def wfOmgs : List WtfOmg → Prop
  | [] => True
  | .mk t e b :: rest => t.Is .OMG ∧ e.WF ∧ wfBlock b ∧ wfOmgs rest

/-- The same for the default case of a switch. -/
def wfOmgWtf : Option WtfOmgWtf → Prop
  | none => True
  | some (.mk t b) => t.Is .OMGWTF ∧ wfBlock b

/-- The same for a `YA RLY` part. -/
def wfYaRly : Option YaRly → Prop
  | none => True
  | some (.mk t b) => t.Is .YA_RLY ∧ wfBlock b

/-- The same for `MEBBE` parts. -/
def wfMebbes : List Mebbe → Prop
  | [] => True
  | .mk t e b :: rest => t.Is .MEBBE ∧ e.WF ∧ wfBlock b ∧ wfMebbes rest

/-- The same for a `NO WAI` part. -/
def wfNoWai : Option NoWai → Prop
  | none => True
  | some (.mk t b) => t.Is .NO_WAI ∧ wfBlock b

/-- The same for a block. -/
def wfBlock : List Node → Prop
  | [] => True
  | node :: rest => node.WF ∧ wfBlock rest

end

/-! ## Panics -/

/-- The statement starts with a variable access that is followed by something else than `R` or `HAS A`. -/
def AccessThen (st : List Token) : Prop :=
  ∃ v t r, v.WF ∧ st = VariableAccess.toks v ++ t :: r ∧ ¬ t.Is .R ∧ ¬ t.Is .HAS_A ∧
    t.tokenType ≠ .bukkitSlotAccess

end Lol
