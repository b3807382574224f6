import Verif.Parser.FailSpec
import Verif.Parser.Split

/-!
# How a program is read, errors included (specification)

The relations `…R` say what is read from a list of statements: `s` is what is to be read, and the outcome is
a value and what is left, an error and what is left, or a panic. They do not follow the code: there is no
iterator, no bound and no order of tests in them, only the tokens of each statement.
-/

namespace Lol

/-- What reading gives: a value and what is left to read, an error and what is left, or a panic. -/
inductive Read (α : Type)
  | ok (a : α) (s : Stmts)
  | error (e : ASTError) (s : Stmts)
  | panic (p : PanicSite)

/-- Apply a function to the value that is read. -/
def Read.map {α β : Type} (f : α → β) : Read α → Read β
  | .ok a s => .ok (f a) s
  | .error e s => .error e s
  | .panic p => .panic p

/-- The outcome of a failure. -/
def Fail.read {α : Type} (f : Fail) (s : Stmts) : Read α :=
  match f with
  | .error e => .error e s
  | .panic p => .panic p

/-! ## The first statement of a block construct -/

/-- What the first statement of a block construct says. -/
inductive Heading
  | loop (t label : Token) (op : Option LoopIterationOperation) (cond : Option LoopCondition)
  | function (t : Token) (name : Identifier) (params : List Identifier)
  | switch (t : Token)
  | conditional (t : Token)

/-- The `UPPIN`/`NERFIN` part of a loop header, which `rest` does not extend. -/
inductive IterR (rest : List Token) : List Token → Option LoopIterationOperation → Prop
  | none : NotFirst .UPPIN rest → NotFirst .NERFIN rest → IterR rest [] none
  | some {op yr v} : op.token.Is op.keyword → yr.Is .YR → v.WF → NoSlot rest →
      IterR rest (op.token :: yr :: v.toks) (some ⟨op, v⟩)

/-- Failures in the `UPPIN`/`NERFIN` part. -/
inductive IterFail (rest : List Token) : List Token → Fail → Prop
  | yrEnd {op : LoopOperation} : op.token.Is op.keyword → rest = [] →
      IterFail rest [op.token] (.error (.imInYr (.missingOperand op.token)))
  | yr {op : LoopOperation} {u} : op.token.Is op.keyword → ¬ u.Is .YR →
      IterFail rest [op.token, u] (.error (.imInYr (.missingYr u)))
  | nameEnd {op : LoopOperation} {yr} : op.token.Is op.keyword → yr.Is .YR → rest = [] →
      IterFail rest [op.token, yr] (.error (.imInYr (.missingOperand op.token)))
  | name {op : LoopOperation} {yr ts f} : op.token.Is op.keyword → yr.Is .YR → AccessFail rest ts f →
      IterFail rest (op.token :: yr :: ts) f

/-- The `TIL`/`WILE` part of a loop header, which `rest` does not extend. -/
inductive CondR (rest : List Token) : List Token → Option LoopCondition → Prop
  | none : NotFirst .TIL rest → NotFirst .WILE rest → CondR rest [] none
  | til {t e} : t.Is .TIL → e.WF → e.Follow rest → CondR rest (t :: e.toks) (some (.til e))
  | wile {t e} : t.Is .WILE → e.WF → e.Follow rest → CondR rest (t :: e.toks) (some (.wile e))

/-- Failures in the `TIL`/`WILE` part. -/
inductive CondFail (rest : List Token) : List Token → Fail → Prop
  | exprEnd {t} : t.Is .TIL ∨ t.Is .WILE → rest = [] →
      CondFail rest [t] (.error (.imInYr (.missingConditionalExpression t)))
  | expr {t ts f} : t.Is .TIL ∨ t.Is .WILE → ExprFail rest ts f → CondFail rest (t :: ts) f

/-- The parameters of a function, which `rest` does not extend. -/
inductive ParamsR (rest : List Token) : List Token → List Identifier → Prop
  | nil : NotFirst .YR rest → ParamsR rest [] []
  | one {yr i} : yr.Is .YR → i.WF → NotFirst .AN rest → ParamsR rest (yr :: i.toks) [i]
  | cons {yr i an ts is} : yr.Is .YR → i.WF → an.Is .AN → ParamsR rest ts is →
      ParamsR rest (yr :: (i.toks ++ an :: ts)) (i :: is)

/-- Failures in the parameters of a function. -/
inductive ParamsFail (rest : List Token) : List Token → Fail → Prop
  | nameEnd {yr} : yr.Is .YR → rest = [] → ParamsFail rest [yr] (.error (.missingToken yr))
  | name {yr ts f} : yr.Is .YR → IdentFail rest ts f → ParamsFail rest (yr :: ts) f
  | later {yr an : Token} {i : Identifier} {ts f} : yr.Is .YR → i.WF → an.Is .AN → ParamsFail rest ts f →
      ParamsFail rest (yr :: (Identifier.toks i ++ an :: ts)) f

/-- The tokens `ts` are the first statement of a block construct, `rest` being left in the statement. -/
inductive HeadR (rest : List Token) : List Token → Heading → Prop
  | loop {t label ops conds op cond} : t.Is .IM_IN_YR → label.IsIdent → IterR (conds ++ rest) ops op →
      CondR rest conds cond → HeadR rest (t :: label :: (ops ++ conds)) (.loop t label op cond)
  | function {t} {i : Identifier} {ps params} : t.Is .HOW_IZ_I → i.WF → ParamsR rest ps params →
      HeadR rest (t :: (Identifier.toks i ++ ps)) (.function t i params)
  | switch {t q} : t.Is .WTF → q.IsQuestion → HeadR rest [t, q] (.switch t)
  | conditional {t q} : t.Is .O_RLY → q.IsQuestion → HeadR rest [t, q] (.conditional t)

/-- Failures in the first statement of a block construct. -/
inductive HeadFail (rest : List Token) : List Token → Fail → Prop
  /-- `IM IN YR` alone -/
  | labelEnd {t} : t.Is .IM_IN_YR → rest = [] → HeadFail rest [t] (.error (.imInYr (.missingStartLabel t)))
  /-- `IM IN YR 1` -/
  | label {t u} : t.Is .IM_IN_YR → ¬ u.IsIdent → HeadFail rest [t, u] (.error (.imInYr (.invalidStartLabel u)))
  /-- `IM IN YR x UPPIN 1` -/
  | iteration {t label ts f} : t.Is .IM_IN_YR → label.IsIdent → IterFail rest ts f →
      HeadFail rest (t :: label :: ts) f
  /-- `IM IN YR x TIL AN` -/
  | condition {t label ops op ts f} : t.Is .IM_IN_YR → label.IsIdent → IterR (ts ++ rest) ops op →
      CondFail rest ts f → HeadFail rest (t :: label :: (ops ++ ts)) f
  /-- `HOW IZ I` alone -/
  | nameEnd {t} : t.Is .HOW_IZ_I → rest = [] → HeadFail rest [t] (.error (.howIsI (.missingNameIdentifier t)))
  /-- `HOW IZ I 1` -/
  | name {t ts f} : t.Is .HOW_IZ_I → IdentFail rest ts f → HeadFail rest (t :: ts) f
  /-- `HOW IZ I x YR 1` -/
  | params {t} {i : Identifier} {ts f} : t.Is .HOW_IZ_I → i.WF → ParamsFail rest ts f →
      HeadFail rest (t :: (Identifier.toks i ++ ts)) f
  /-- `WTF` alone, `O RLY` alone -/
  | questionEnd {t} : t.Is .WTF ∨ t.Is .O_RLY → rest = [] →
      HeadFail rest [t] (.error (.oRly (.missingQuestionMark t)))
  /-- `WTF 1`, `O RLY 1` -/
  | question {t q} : t.Is .WTF ∨ t.Is .O_RLY → ¬ q.IsQuestion →
      HeadFail rest [t, q] (.error (.oRly (.missingQuestionMark t)))

/-! ## Statements and blocks -/

/-- A block that `close` ends stops before `s`: `s` starts with one of these keywords, or with an empty statement,
or is the end. -/
def Stop (close : List Keyword) (s : Stmts) : Prop :=
  s.cur = [] ∨ ∃ t r, s.cur = t :: r ∧ ∃ k ∈ close, t.Is k

/-- What ends the body of a loop. -/
def closeLoop : List Keyword := [.IM_OUTTA_YR]

/-- What ends the body of a function. -/
def closeFunction : List Keyword := [.IF_U_SAY_SO]

/-- What ends the body of a case. -/
def closeSwitch : List Keyword := [.OMG, .OMGWTF, .OIC]

/-- What ends the body of a branch. -/
def closeIf : List Keyword := [.MEBBE, .NO_WAI, .YA_RLY, .OIC]

/-- The error node for the tokens left in a statement. -/
def leftoverNodes (c : List Token) : Block := if c = [] then [] else [.astError (.tooManyTokens c)]

mutual

/-- One statement, with the statements of its blocks. -/
inductive NodeR : Stmts → Read Node → Prop
  /-- a statement that opens no block -/
  | simple {ts rest node later} : SimpleG rest ts node → NodeR ⟨ts ++ rest, later⟩ (.ok node ⟨rest, later⟩)
  | simpleFail {ts rest f later} : SimpleFail rest ts f → NodeR ⟨ts ++ rest, later⟩ (f.read ⟨rest, later⟩)
  /-- `HAI` takes the whole statement -/
  | hai {t version later} : t.Is .HAI → NodeR ⟨t :: version, later⟩ (.ok (.hai ⟨t, version⟩) (.of later))
  /-- an error in the first statement of a block construct -/
  | headFail {ts rest f later} : HeadFail rest ts f → NodeR ⟨ts ++ rest, later⟩ (f.read ⟨rest, later⟩)
  | headLeft {ts rest h later} : HeadR rest ts h → rest ≠ [] →
      NodeR ⟨ts ++ rest, later⟩ (.error (.tooManyTokens rest) (.of later))
  /-- `IM IN YR label … IM OUTTA YR label` -/
  | loop {ts t label op cond later body c endLabel rest l} : HeadR [] ts (.loop t label op cond) →
      BlockR closeLoop (.of later) (.ok body ⟨c :: endLabel :: rest, l⟩) → endLabel.IsIdent →
      NodeR ⟨ts, later⟩ (.ok (.imInYr t label op cond body endLabel) ⟨rest, l⟩)
  | loopPanic {ts t label op cond later p} : HeadR [] ts (.loop t label op cond) →
      BlockR closeLoop (.of later) (.panic p) → NodeR ⟨ts, later⟩ (.panic p)
  | loopEnd {ts t label op cond later body l} : HeadR [] ts (.loop t label op cond) →
      BlockR closeLoop (.of later) (.ok body ⟨[], l⟩) →
      NodeR ⟨ts, later⟩ (.error (.imInYr (.missingImOuttaYr t)) ⟨[], l⟩)
  | loopLabelEnd {ts t label op cond later body c l} : HeadR [] ts (.loop t label op cond) →
      BlockR closeLoop (.of later) (.ok body ⟨[c], l⟩) →
      NodeR ⟨ts, later⟩ (.error (.imInYr (.missingEndLabel c)) ⟨[], l⟩)
  | loopLabel {ts t label op cond later body c u rest l} : HeadR [] ts (.loop t label op cond) →
      BlockR closeLoop (.of later) (.ok body ⟨c :: u :: rest, l⟩) → ¬ u.IsIdent →
      NodeR ⟨ts, later⟩ (.error (.imInYr (.invalidEndLabel u)) ⟨rest, l⟩)
  /-- `HOW IZ I name … IF U SAY SO` -/
  | function {ts t i params later body c l} : HeadR [] ts (.function t i params) →
      BlockR closeFunction (.of later) (.ok body ⟨[c], l⟩) →
      NodeR ⟨ts, later⟩ (.ok (.howIzI t i params body) (.of l))
  | functionPanic {ts t i params later p} : HeadR [] ts (.function t i params) →
      BlockR closeFunction (.of later) (.panic p) → NodeR ⟨ts, later⟩ (.panic p)
  | functionEnd {ts t i params later body l} : HeadR [] ts (.function t i params) →
      BlockR closeFunction (.of later) (.ok body ⟨[], l⟩) →
      NodeR ⟨ts, later⟩ (.error (.missingBlockClosingToken t) ⟨[], l⟩)
  | functionLeft {ts t i params later body c rest l} : HeadR [] ts (.function t i params) →
      BlockR closeFunction (.of later) (.ok body ⟨c :: rest, l⟩) → rest ≠ [] →
      NodeR ⟨ts, later⟩ (.error (.tooManyTokens rest) (.of l))
  /-- `WTF ? … OIC` -/
  | switch {ts t later omgs s1 dflt c l} : HeadR [] ts (.switch t) → OmgsR (.of later) (.ok omgs s1) →
      OmgWtfR s1 (.ok dflt ⟨[c], l⟩) → c.Is .OIC → NodeR ⟨ts, later⟩ (.ok (.wtf t omgs dflt) (.of l))
  | switchCases {ts t later s} {f : Fail} : HeadR [] ts (.switch t) → OmgsR (.of later) (f.read s) →
      NodeR ⟨ts, later⟩ (f.read s)
  | switchDefault {ts t later omgs s1 s} {f : Fail} : HeadR [] ts (.switch t) →
      OmgsR (.of later) (.ok omgs s1) → OmgWtfR s1 (f.read s) → NodeR ⟨ts, later⟩ (f.read s)
  | switchEnd {ts t later omgs s1 dflt l} : HeadR [] ts (.switch t) → OmgsR (.of later) (.ok omgs s1) →
      OmgWtfR s1 (.ok dflt ⟨[], l⟩) → NodeR ⟨ts, later⟩ (.error (.missingBlockClosingToken t) ⟨[], l⟩)
  | switchOther {ts t later omgs s1 dflt c rest l} : HeadR [] ts (.switch t) →
      OmgsR (.of later) (.ok omgs s1) → OmgWtfR s1 (.ok dflt ⟨c :: rest, l⟩) → ¬ c.Is .OIC →
      NodeR ⟨ts, later⟩ (.error (.unexpectedToken c) ⟨rest, l⟩)
  | switchLeft {ts t later omgs s1 dflt c rest l} : HeadR [] ts (.switch t) →
      OmgsR (.of later) (.ok omgs s1) → OmgWtfR s1 (.ok dflt ⟨c :: rest, l⟩) → c.Is .OIC → rest ≠ [] →
      NodeR ⟨ts, later⟩ (.error (.tooManyTokens rest) (.of l))
  /-- `O RLY ? … OIC` -/
  | conditional {ts t later yaRly s1 mebbes s2 noWai c rest l} : HeadR [] ts (.conditional t) →
      YaRlyR (.of later) (.ok yaRly s1) → MebbesR s1 (.ok mebbes s2) → NoWaiR s2 (.ok noWai ⟨c :: rest, l⟩) →
      c.Is .OIC → NodeR ⟨ts, later⟩ (.ok (.oRly t yaRly noWai mebbes) ⟨rest, l⟩)
  | conditionalYes {ts t later s} {f : Fail} : HeadR [] ts (.conditional t) → YaRlyR (.of later) (f.read s) →
      NodeR ⟨ts, later⟩ (f.read s)
  | conditionalMaybe {ts t later yaRly s1 s} {f : Fail} : HeadR [] ts (.conditional t) →
      YaRlyR (.of later) (.ok yaRly s1) → MebbesR s1 (f.read s) → NodeR ⟨ts, later⟩ (f.read s)
  | conditionalNo {ts t later yaRly s1 mebbes s2 s} {f : Fail} : HeadR [] ts (.conditional t) →
      YaRlyR (.of later) (.ok yaRly s1) → MebbesR s1 (.ok mebbes s2) → NoWaiR s2 (f.read s) →
      NodeR ⟨ts, later⟩ (f.read s)
  | conditionalEnd {ts t later yaRly s1 mebbes s2 noWai l} : HeadR [] ts (.conditional t) →
      YaRlyR (.of later) (.ok yaRly s1) → MebbesR s1 (.ok mebbes s2) → NoWaiR s2 (.ok noWai ⟨[], l⟩) →
      NodeR ⟨ts, later⟩ (.error (.missingBlockClosingToken t) ⟨[], l⟩)
  | conditionalOther {ts t later yaRly s1 mebbes s2 noWai c rest l} : HeadR [] ts (.conditional t) →
      YaRlyR (.of later) (.ok yaRly s1) → MebbesR s1 (.ok mebbes s2) → NoWaiR s2 (.ok noWai ⟨c :: rest, l⟩) →
      ¬ c.Is .OIC → NodeR ⟨ts, later⟩ (.error (.unexpectedToken c) ⟨rest, l⟩)

/-- The cases of a switch. -/
inductive OmgsR : Stmts → Read (List WtfOmg) → Prop
  | nil {s} : NotFirst .OMG s.cur → OmgsR s (.ok [] s)
  | valueEnd {t l} : t.Is .OMG → OmgsR ⟨[t], l⟩ (.error (.missingToken t) ⟨[], l⟩)
  | value {t ts rest f l} : t.Is .OMG → ExprFail rest ts f → OmgsR ⟨t :: (ts ++ rest), l⟩ (f.read ⟨rest, l⟩)
  | left {t e rest l} : t.Is .OMG → e.WF → e.Follow rest → rest ≠ [] →
      OmgsR ⟨t :: (Expr.toks e ++ rest), l⟩ (.error (.tooManyTokens rest) (.of l))
  | body {t e l p} : t.Is .OMG → e.WF → BlockR closeSwitch (.of l) (.panic p) →
      OmgsR ⟨t :: Expr.toks e, l⟩ (.panic p)
  | cons {t e l nodes s r} : t.Is .OMG → e.WF → BlockR closeSwitch (.of l) (.ok nodes s) → OmgsR s r →
      OmgsR ⟨t :: Expr.toks e, l⟩ (r.map (.mk t e nodes :: ·))

/-- The default case of a switch. -/
inductive OmgWtfR : Stmts → Read (Option WtfOmgWtf) → Prop
  | none {s} : NotFirst .OMGWTF s.cur → OmgWtfR s (.ok none s)
  | left {t rest l} : t.Is .OMGWTF → rest ≠ [] → OmgWtfR ⟨t :: rest, l⟩ (.error (.tooManyTokens rest) (.of l))
  | some {t l r} : t.Is .OMGWTF → BlockR closeSwitch (.of l) r → OmgWtfR ⟨[t], l⟩ (r.map (some <| .mk t ·))

/-- The `YA RLY` part of a conditional. -/
inductive YaRlyR : Stmts → Read (Option YaRly) → Prop
  | none {s} : NotFirst .YA_RLY s.cur → YaRlyR s (.ok none s)
  | left {t rest l} : t.Is .YA_RLY → rest ≠ [] → YaRlyR ⟨t :: rest, l⟩ (.error (.tooManyTokens rest) (.of l))
  | some {t l r} : t.Is .YA_RLY → BlockR closeIf (.of l) r → YaRlyR ⟨[t], l⟩ (r.map (some <| .mk t ·))

/-- The `MEBBE` parts of a conditional. -/
inductive MebbesR : Stmts → Read (List Mebbe) → Prop
  | nil {s} : NotFirst .MEBBE s.cur → MebbesR s (.ok [] s)
  | valueEnd {t l} : t.Is .MEBBE → MebbesR ⟨[t], l⟩ (.error (.oRly (.missingMebbeExpression t)) ⟨[], l⟩)
  | value {t ts rest f l} : t.Is .MEBBE → ExprFail rest ts f →
      MebbesR ⟨t :: (ts ++ rest), l⟩ (f.read ⟨rest, l⟩)
  | left {t e rest l} : t.Is .MEBBE → e.WF → e.Follow rest → rest ≠ [] →
      MebbesR ⟨t :: (Expr.toks e ++ rest), l⟩ (.error (.tooManyTokens rest) (.of l))
  | body {t e l p} : t.Is .MEBBE → e.WF → BlockR closeIf (.of l) (.panic p) →
      MebbesR ⟨t :: Expr.toks e, l⟩ (.panic p)
  | cons {t e l nodes s r} : t.Is .MEBBE → e.WF → BlockR closeIf (.of l) (.ok nodes s) → MebbesR s r →
      MebbesR ⟨t :: Expr.toks e, l⟩ (r.map (.mk t e nodes :: ·))

/-- The `NO WAI` part of a conditional. -/
inductive NoWaiR : Stmts → Read (Option NoWai) → Prop
  | none {s} : NotFirst .NO_WAI s.cur → NoWaiR s (.ok none s)
  | left {t rest l} : t.Is .NO_WAI → rest ≠ [] → NoWaiR ⟨t :: rest, l⟩ (.error (.tooManyTokens rest) (.of l))
  | some {t l r} : t.Is .NO_WAI → BlockR closeIf (.of l) r → NoWaiR ⟨[t], l⟩ (r.map (some <| .mk t ·))

/-- One statement of a block: its node, or an error node, and an error node for the tokens left. -/
inductive StepR : Stmts → Read Block → Prop
  | empty {l} : StepR ⟨[], l⟩ (.ok [] (.of l))
  | ok {s node rest l} : NodeR s (.ok node ⟨rest, l⟩) → StepR s (.ok (node :: leftoverNodes rest) (.of l))
  | error {s e rest l} : NodeR s (.error e ⟨rest, l⟩) →
      StepR s (.ok (.astError e :: leftoverNodes rest) (.of l))
  | panic {s p} : NodeR s (.panic p) → StepR s (.panic p)

/-- A block that `close` ends: statements, at least one, up to the first point where it stops. -/
inductive BlockR : List Keyword → Stmts → Read Block → Prop
  | last {close s nodes s'} : StepR s (.ok nodes s') → Stop close s' → BlockR close s (.ok nodes s')
  | more {close s nodes s' r} : StepR s (.ok nodes s') → ¬ Stop close s' → BlockR close s' r →
      BlockR close s (r.map (nodes ++ ·))
  | panic {close s p} : StepR s (.panic p) → BlockR close s (.panic p)

end

/-- `Reaches start nodes s`: the program `start` is read up to the statement `s`, which belongs to the program
itself and not to a block inside it, and `nodes` have been read before. -/
inductive Reaches (start : Stmts) : Block → Stmts → Prop
  | start : Reaches start [] start
  | step {nodes s more s'} : Reaches start nodes s → StepR s (.ok more s') → s'.cur ≠ [] →
      Reaches start (nodes ++ more) s'

end Lol
