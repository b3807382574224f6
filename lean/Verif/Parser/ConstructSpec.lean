import Verif.Parser.ReadSpec
import Verif.Parser.TreeSpec

/-!
# Block constructs (specification)

`XAt ts later … rest l`: the statement `ts`, followed by the statements `later`, is the construct; the tokens `rest`
are left in its last statement and the statements `l` follow. The bodies are what is read from the statements in
between, which may contain errors.
-/

namespace Lol

/-- `ts` is `IM IN YR label`, then optionally `UPPIN`/`NERFIN YR access`, then optionally `TIL`/`WILE expression`. -/
def LoopHead (ts : List Token) (t label : Token) (op : Option LoopIterationOperation) (cond : Option LoopCondition) :
    Prop :=
  ∃ ops conds, ts = t :: label :: (ops ++ conds) ∧ t.Is .IM_IN_YR ∧ label.IsIdent ∧ IterationG ops op ∧
    ConditionG conds cond

/-- A loop: its header, its body, `IM OUTTA YR` and a label. -/
def LoopAt (ts : List Token) (later : List (List Token)) (t label : Token) (op : Option LoopIterationOperation)
    (cond : Option LoopCondition) (body : Block) (endLabel : Token) (rest : List Token) (l : List (List Token)) :
    Prop :=
  ∃ c, LoopHead ts t label op cond ∧ BlockR [.IM_OUTTA_YR] (.of later) (.ok body ⟨c :: endLabel :: rest, l⟩) ∧
    c.Is .IM_OUTTA_YR ∧ endLabel.IsIdent

/-- `ts` is `HOW IZ I name` and the parameters. -/
def FunctionHead (ts : List Token) (t : Token) (name : Identifier) (params : List Identifier) : Prop :=
  ∃ ps, ts = t :: (name.toks ++ ps) ∧ t.Is .HOW_IZ_I ∧ name.WF ∧ ParamsG ps params

/-- A function: its header, its body and `IF U SAY SO`, a whole statement. -/
def FunctionAt (ts : List Token) (later : List (List Token)) (t : Token) (name : Identifier)
    (params : List Identifier) (body : Block) (l : List (List Token)) : Prop :=
  ∃ c, FunctionHead ts t name params ∧ BlockR [.IF_U_SAY_SO] (.of later) (.ok body ⟨[c], l⟩) ∧ c.Is .IF_U_SAY_SO

/-- A conditional: `O RLY ?`, the parts in their order, and `OIC`. -/
def ConditionalAt (ts : List Token) (later : List (List Token)) (t : Token) (yaRly : Option YaRly)
    (noWai : Option NoWai) (mebbes : List Mebbe) (rest : List Token) (l : List (List Token)) : Prop :=
  ∃ q s1 s2 c, ts = [t, q] ∧ t.Is .O_RLY ∧ q.IsQuestion ∧ YaRlyR (.of later) (.ok yaRly s1) ∧
    MebbesR s1 (.ok mebbes s2) ∧ NoWaiR s2 (.ok noWai ⟨c :: rest, l⟩) ∧ c.Is .OIC

/-- A switch: `WTF ?`, the cases, the default case, and `OIC`, a whole statement. -/
def SwitchAt (ts : List Token) (later : List (List Token)) (t : Token) (omgs : List WtfOmg)
    (omgWtf : Option WtfOmgWtf) (l : List (List Token)) : Prop :=
  ∃ q s1 c, ts = [t, q] ∧ t.Is .WTF ∧ q.IsQuestion ∧ OmgsR (.of later) (.ok omgs s1) ∧
    OmgWtfR s1 (.ok omgWtf ⟨[c], l⟩) ∧ c.Is .OIC

/-- A loop that is not closed: the body runs to an empty statement or to the end of the program. -/
def LoopOpen (ts : List Token) (later : List (List Token)) (t : Token) : Prop :=
  ∃ label op cond body l, LoopHead ts t label op cond ∧ BlockR [.IM_OUTTA_YR] (.of later) (.ok body ⟨[], l⟩)

/-- A function that is not closed. -/
def FunctionOpen (ts : List Token) (later : List (List Token)) (t : Token) : Prop :=
  ∃ name params body l, FunctionHead ts t name params ∧ BlockR [.IF_U_SAY_SO] (.of later) (.ok body ⟨[], l⟩)

/-- A conditional that is not closed. -/
def ConditionalOpen (ts : List Token) (later : List (List Token)) (t : Token) : Prop :=
  ∃ q yaRly s1 mebbes s2 noWai l, ts = [t, q] ∧ t.Is .O_RLY ∧ q.IsQuestion ∧ YaRlyR (.of later) (.ok yaRly s1) ∧
    MebbesR s1 (.ok mebbes s2) ∧ NoWaiR s2 (.ok noWai ⟨[], l⟩)

/-- A switch that is not closed. -/
def SwitchOpen (ts : List Token) (later : List (List Token)) (t : Token) : Prop :=
  ∃ q omgs s1 omgWtf l, ts = [t, q] ∧ t.Is .WTF ∧ q.IsQuestion ∧ OmgsR (.of later) (.ok omgs s1) ∧
    OmgWtfR s1 (.ok omgWtf ⟨[], l⟩)

/-- The tree is the nodes `before`, the node, error nodes for the tokens left in its statement, and what follows. -/
def Follows (tree before : Block) (node : Node) (rest : List Token) : Prop :=
  ∃ more, tree = before ++ node :: (leftoverNodes rest ++ more)

/-- The node and whatever follows it come after the nodes `before`. -/
def HasNode (tree before : Block) (node : Node) : Prop := ∃ more, tree = before ++ node :: more

/-- After these nodes the parser takes one more statement: `HAI`, functions and switches. -/
def Node.TakesNext : Node → Prop
  | .hai _ | .howIzI _ _ _ _ | .wtf _ _ _ => True
  | _ => False

/-- Such a node, the statements `l` being left after it. -/
inductive TakesNextAt (ts : List Token) (later : List (List Token)) : Node → List (List Token) → Prop
  | hai {t version} : ts = t :: version → t.Is .HAI → TakesNextAt ts later (.hai ⟨t, version⟩) later
  | function {t name params body l} : FunctionAt ts later t name params body l →
      TakesNextAt ts later (.howIzI t name params body) l
  | switch {t omgs omgWtf l} : SwitchAt ts later t omgs omgWtf l → TakesNextAt ts later (.wtf t omgs omgWtf) l

/-- The keywords that open a construct with blocks, each with the keyword that closes it. -/
def openClose : List (Keyword × Keyword) :=
  [(.IM_IN_YR, .IM_OUTTA_YR), (.HOW_IZ_I, .IF_U_SAY_SO), (.O_RLY, .OIC), (.WTF, .OIC)]

/-- The keywords that close a block or start the next part of a construct. -/
def closingKeywords : List Keyword :=
  [.IM_OUTTA_YR, .IF_U_SAY_SO, .OMG, .OMGWTF, .OIC, .MEBBE, .NO_WAI, .YA_RLY]

/-- The token is a comment. -/
def Token.IsComment (t : Token) : Prop :=
  (∃ s, t.tokenType = .commentSingleLine s) ∨ ∃ s, t.tokenType = .commentMultiLine s

/-- There is no comment among the tokens. -/
def NoComment (ts : List Token) : Prop := ∀ t ∈ ts, ¬ t.IsComment

/-- The statement starts with `HAI`. -/
def StartsHai (st : List Token) : Prop := ∃ t r, st = t :: r ∧ t.Is .HAI

end Lol
