import Verif.Basic
import Verif.Parser.StmtSpec

/-!
# Statements that do not parse (specification)

`ExprFail rest ts f`: reading an expression from the tokens `ts ++ rest` of a statement fails with `f` after
reading `ts`. The other relations are similar.
-/

namespace Lol

/-- How parsing fails: with an error, or by a panic. -/
inductive Fail
  | error (e : ASTError)
  | panic (p : PanicSite)

/-- The keywords that start an expression. -/
def exprKeywords : List Keyword :=
  [.SRS, .NOOB, .BOTH_OF, .EITHER_OF, .WON_OF, .NOT, .ALL_OF, .ANY_OF, .SUM_OF, .DIFF_OF, .PRODUKT_OF,
    .QUOSHUNT_OF, .MOD_OF, .BIGGR_OF, .SMALLR_OF, .BOTH_SAEM, .DIFFRINT, .SMOOSH, .MAEK]

/-- An expression can start with the token. -/
def Token.StartsExpr (t : Token) : Prop :=
  t.IsIdent ∨ (∃ v, t.tokenType = .value v) ∨ ∃ k ∈ exprKeywords, t.Is k

/-- The tokens do not start with the keyword `k`. -/
def NotFirst (k : Keyword) (ts : List Token) : Prop := ∀ t r, ts = t :: r → ¬ t.Is k

/-- The tokens start like a variable access: with an identifier or `SRS`. -/
def AccessFirst (ts : List Token) : Prop := ∃ t r, ts = t :: r ∧ (t.IsIdent ∨ t.Is .SRS)

/-- Failures in an identifier. -/
inductive IdentFail (rest : List Token) : List Token → Fail → Prop
  | notIdent {t} : ¬ t.IsIdent → ¬ t.Is .SRS → IdentFail rest [t] (.error (.unexpectedToken t))
  | srsEnd {s} : s.Is .SRS → rest = [] → IdentFail rest [s] (.error (.missingToken s))
  | srsNotIdent {s t} : s.Is .SRS → ¬ t.IsIdent → IdentFail rest [s, t] (.error (.unexpectedToken t))

/-- Failures in a variable access. -/
inductive AccessFail (rest : List Token) : List Token → Fail → Prop
  | name {ts f} : IdentFail rest ts f → AccessFail rest ts f
  | slotEnd {v z} : VariableAccess.WF v → z.tokenType = .bukkitSlotAccess → rest = [] →
      AccessFail rest (v.toks ++ [z]) (.error (.missingToken z))
  | slot {v z ts f} : VariableAccess.WF v → z.tokenType = .bukkitSlotAccess → IdentFail rest ts f →
      AccessFail rest (v.toks ++ z :: ts) f

/-- Operands that are all read before the tokens `rest`, where the next operand is looked for. -/
def Before : List Operand → (rest : List Token) → Prop
  | [], _ => True
  | .mk e an :: es, rest => e.WF ∧ e.Follow (an.toList ++ (toksOperands es ++ rest)) ∧ (∀ t ∈ an, t.Is .AN) ∧
      (an = none → NotFirst .AN (toksOperands es ++ rest)) ∧ Before es rest

/-- Failures in an expression. -/
inductive ExprFail (rest : List Token) : List Token → Fail → Prop
  | start {t} : ¬ t.StartsExpr → ExprFail rest [t] (.error (.unexpectedToken t))
  | maek {t} : t.Is .MAEK → ExprFail rest [t] (.panic .todoMaek)
  | access {ts f} : AccessFirst ts → AccessFail rest ts f → ExprFail rest ts f
  | unaryEnd {op : UnaryOpt} : op.token.Is op.keyword → rest = [] →
      ExprFail rest [op.token] (.error (.expression (.missingOperands op.token)))
  | unary {op : UnaryOpt} {ts : List Token} {f : Fail} : op.token.Is op.keyword → ExprFail rest ts f →
      ExprFail rest (op.token :: ts) f
  | binaryEnd {op : BinaryOpt} : op.token.Is op.keyword → rest = [] →
      ExprFail rest [op.token] (.error (.expression (.missingOperands op.token)))
  | binaryLeft {op : BinaryOpt} {ts : List Token} {f : Fail} : op.token.Is op.keyword → ExprFail rest ts f →
      ExprFail rest (op.token :: ts) f
  | binaryMiddle {op : BinaryOpt} {l : Expr} {an : Option Token} : op.token.Is op.keyword → l.WF →
      l.Follow an.toList →
      (∀ t ∈ an, t.Is .AN) → rest = [] →
      ExprFail rest (op.token :: (l.toks ++ an.toList)) (.error (.expression (.missingOperands op.token)))
  | binaryRight {op : BinaryOpt} {l : Expr} {an : Option Token} {ts : List Token} {f : Fail} : op.token.Is op.keyword →
      l.WF → l.Follow (an.toList ++ ts) →
      (∀ t ∈ an, t.Is .AN) → (an = none → NotFirst .AN ts) → ExprFail rest ts f →
      ExprFail rest (op.token :: (l.toks ++ (an.toList ++ ts))) f
  | nary {op : NaryOpt} {es : List Operand} {ts : List Token} {f : Fail} : op.token.Is op.keyword →
      Before es ts → NotFirst .MKAY ts →
      ExprFail rest ts f → ExprFail rest (op.token :: (toksOperands es ++ ts)) f

/-- The keywords that start a statement. -/
def statementKeywords : List Keyword :=
  [.I_HAS_A, .VISIBLE, .GIMMEH, .FOUND_YR, .HAI, .KTHXBYE, .GTFO, .I_IZ, .IM_IN_YR, .HOW_IZ_I, .WTF, .O_RLY]

/-- The keywords that name a type. -/
def typeKeywords : List Keyword := [.NUMBR, .NUMBAR, .YARN, .NOOB, .BUKKIT, .TROOF]

/-- Failures in the arguments of `I IZ`. -/
inductive ArgsFail (rest : List Token) : List Token → Fail → Prop
  | yrEnd {yr} : yr.Is .YR → rest = [] → ArgsFail rest [yr] (.error (.iIz (.missingArgument yr)))
  | argument {yr ts f} : yr.Is .YR → ExprFail rest ts f → ArgsFail rest (yr :: ts) f
  | later {yr an : Token} {e : Expr} {ts f} : yr.Is .YR → e.WF → ¬ e.Open → an.Is .AN → ArgsFail rest ts f →
      ArgsFail rest (yr :: (Expr.toks e ++ an :: ts)) f

/-- Arguments of `I IZ` that `rest` cannot extend. -/
inductive ArgsEnd (rest : List Token) : List Token → Prop
  | nil : NotFirst .YR rest → ArgsEnd rest []
  | one {yr : Token} {e : Expr} : yr.Is .YR → e.WF → e.Follow rest → NotFirst .AN rest →
      ArgsEnd rest (yr :: Expr.toks e)
  | cons {yr an : Token} {e : Expr} {ts} : yr.Is .YR → e.WF → ¬ e.Open → an.Is .AN → ArgsEnd rest ts →
      ArgsEnd rest (yr :: (Expr.toks e ++ an :: ts))

/-- Failures in a statement that does not open a block. -/
inductive SimpleFail (rest : List Token) : List Token → Fail → Prop
  /-- `I HAS A` alone -/
  | declarationEnd {t} : t.Is .I_HAS_A → rest = [] → SimpleFail rest [t] (.error (.iHasA (.missingIdentifier t)))
  /-- `I HAS A 1` -/
  | declarationName {t u} : t.Is .I_HAS_A → ¬ u.IsIdent → ¬ u.Is .SRS →
      SimpleFail rest [t, u] (.error (.iHasA (.invalidIdentifier u)))
  /-- `I HAS A SRS 1` -/
  | declarationSrs {t ts f} : t.Is .I_HAS_A → AccessFirst ts → IdentFail rest ts f → SimpleFail rest (t :: ts) f
  /-- `I HAS A x 1` -/
  | declarationItz {t i u} : t.Is .I_HAS_A → Identifier.WF i → ¬ u.Is .ITZ →
      SimpleFail rest (t :: (i.toks ++ [u])) (.error (.unexpectedToken u))
  /-- `I HAS A x ITZ` -/
  | declarationNoValue {t i itz} : t.Is .I_HAS_A → Identifier.WF i → itz.Is .ITZ → rest = [] →
      SimpleFail rest (t :: (i.toks ++ [itz])) (.error (.iHasA (.expectedInitialValue itz)))
  /-- `I HAS A x ITZ AN` -/
  | declarationValue {t i itz ts f} : t.Is .I_HAS_A → Identifier.WF i → itz.Is .ITZ →
      (∀ k ∈ typeKeywords, NotFirst k ts) → ExprFail rest ts f →
      SimpleFail rest (t :: (i.toks ++ itz :: ts)) f
  /-- `x'Z 1` -/
  | access {ts f} : AccessFirst ts → AccessFail rest ts f → SimpleFail rest ts f
  /-- `x 1` -/
  | accessThen {v t} : VariableAccess.WF v → ¬ t.Is .R → ¬ t.Is .HAS_A → t.tokenType ≠ .bukkitSlotAccess →
      SimpleFail rest (v.toks ++ [t]) (.panic .unreachableStatement)
  /-- `x R` -/
  | assignmentEnd {v r} : VariableAccess.WF v → r.Is .R → rest = [] →
      SimpleFail rest (v.toks ++ [r]) (.error (.variableAssignment (.expectedValue r)))
  /-- `x R AN` -/
  | assignmentValue {v r ts f} : VariableAccess.WF v → r.Is .R → ExprFail rest ts f →
      SimpleFail rest (v.toks ++ r :: ts) f
  /-- `x HAS A` -/
  | setSlotEnd {v h} : VariableAccess.WF v → h.Is .HAS_A → rest = [] →
      SimpleFail rest (v.toks ++ [h]) (.error (.variableAssignment (.expectedValue h)))
  /-- `x HAS A 1` -/
  | setSlotName {v h ts f} : VariableAccess.WF v → h.Is .HAS_A → IdentFail rest ts f →
      SimpleFail rest (v.toks ++ h :: ts) f
  /-- `x HAS A y` -/
  | setSlotNoItz {v} {h : Token} {i : Identifier} : VariableAccess.WF v → h.Is .HAS_A → i.WF → rest = [] →
      SimpleFail rest (v.toks ++ h :: Identifier.toks i) (.error (.missingToken i.name))
  /-- `x HAS A y 1` -/
  | setSlotItz {v} {h u : Token} {i : Identifier} : VariableAccess.WF v → h.Is .HAS_A → i.WF → ¬ u.Is .ITZ →
      SimpleFail rest (v.toks ++ h :: (Identifier.toks i ++ [u])) (.error (.unexpectedToken u))
  /-- `x HAS A y ITZ` -/
  | setSlotNoValue {v} {h itz : Token} {i : Identifier} : VariableAccess.WF v → h.Is .HAS_A → i.WF →
      itz.Is .ITZ → rest = [] →
      SimpleFail rest (v.toks ++ h :: (Identifier.toks i ++ [itz])) (.error (.missingToken itz))
  /-- `x HAS A y ITZ AN` -/
  | setSlotValue {v} {h itz : Token} {i : Identifier} {ts f} : VariableAccess.WF v → h.Is .HAS_A → i.WF →
      itz.Is .ITZ → ExprFail rest ts f →
      SimpleFail rest (v.toks ++ h :: (Identifier.toks i ++ itz :: ts)) f
  /-- `VISIBLE x AN` -/
  | visible {t es ts f} : t.Is .VISIBLE → FollowAll es ts → (∀ x r, ts = x :: r → x.tokenType ≠ .exclamationMark) →
      ExprFail rest ts f → SimpleFail rest (t :: (es.flatMap Expr.toks ++ ts)) f
  /-- `GIMMEH` alone -/
  | gimmehEnd {t} : t.Is .GIMMEH → rest = [] → SimpleFail rest [t] (.error (.missingToken t))
  /-- `GIMMEH 1` -/
  | gimmeh {t ts f} : t.Is .GIMMEH → AccessFail rest ts f → SimpleFail rest (t :: ts) f
  /-- `FOUND YR` alone -/
  | foundYrEnd {t} : t.Is .FOUND_YR → rest = [] → SimpleFail rest [t] (.error (.missingToken t))
  /-- `FOUND YR AN` -/
  | foundYr {t ts f} : t.Is .FOUND_YR → ExprFail rest ts f → SimpleFail rest (t :: ts) f
  /-- `I IZ` alone -/
  | callEnd {t} : t.Is .I_IZ → rest = [] → SimpleFail rest [t] (.error (.iIz (.missingName t)))
  /-- `I IZ 1` -/
  | callName {t ts f} : t.Is .I_IZ → AccessFail rest ts f → SimpleFail rest (t :: ts) f
  /-- `I IZ x YR AN` -/
  | callArguments {t v ts f} : t.Is .I_IZ → VariableAccess.WF v → ArgsFail rest ts f →
      SimpleFail rest (t :: (v.toks ++ ts)) f
  /-- `I IZ x YR 1` -/
  | callNoMkay {t v ts} : t.Is .I_IZ → VariableAccess.WF v → ArgsEnd [] ts → rest = [] →
      SimpleFail rest (t :: (v.toks ++ ts)) (.error (.iIz (.missingMkay t)))
  /-- `I IZ x YR 1 2` -/
  | callMkay {t v ts u} : t.Is .I_IZ → VariableAccess.WF v → ArgsEnd (u :: rest) ts → NoSlot (ts ++ [u]) →
      ¬ u.Is .MKAY → SimpleFail rest (t :: (v.toks ++ (ts ++ [u]))) (.error (.iIz (.missingMkay u)))
  /-- any other statement -/
  | expression {t ts f} : (∀ k ∈ statementKeywords, ¬ t.Is k) → ¬ t.IsIdent → ¬ t.Is .SRS →
      ExprFail rest (t :: ts) f → SimpleFail rest (t :: ts) f

end Lol
