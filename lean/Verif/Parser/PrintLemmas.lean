import Verif.Parser.PrintSpec
import Verif.Parser.TreeLemmas
import Verif.Parser.ProgramComplete
import Verif.Parser.SplitLemmas

/-!
# Lemmas on writing trees down
-/

namespace Lol

theorem word_is (k : Keyword) : (word k).Is k := rfl

theorem question_is : question.IsQuestion := rfl

theorem Expr.WF.noSlot {e : Expr} (h : e.WF) (r : List Token) : NoSlot (e.toks ++ r) :=
  NoSlot.of_G ((Expr.G_iff e []).2 ⟨h, fun _ => rfl, fun _ => NoSlot.nil⟩) r

theorem Expr.Follow.nil {e : Expr} : e.Follow [] := ⟨fun _ => rfl, fun _ => NoSlot.nil⟩

theorem argsG_print {rest : List Token} : (es : List Expr) → (∀ e ∈ es, e.WF) → (∀ e ∈ es, ¬ e.Open) → NoSlot rest →
    ArgsG rest (printArgs es) es
  | [], _, _, _ => .nil
  | [e], h1, h2, h3 => .one (word_is _) (h1 e (by simp)) ⟨fun h => absurd h (h2 e (by simp)), fun _ => h3⟩
  | e :: e' :: es, h1, h2, h3 =>
    .cons (word_is _) (h1 e (by simp)) (h2 e (by simp)) (word_is _)
      (argsG_print (e' :: es) (fun x hx => h1 x (by simp [List.mem_cons.1 hx]))
        (fun x hx => h2 x (by simp [List.mem_cons.1 hx])) h3)

theorem paramsG_print : (is : List Identifier) → (∀ i ∈ is, i.WF) → ParamsG (printParams is) is
  | [], _ => .nil
  | [i], h => .one (word_is _) (h i (by simp))
  | i :: i' :: is, h =>
    .cons (word_is _) (h i (by simp)) (word_is _)
      (paramsG_print (i' :: is) fun x hx => h x (by simp [List.mem_cons.1 hx]))

theorem iterationG_print (op : Option LoopIterationOperation) (h : ∀ o ∈ op, o.WF) :
    IterationG (printIteration op) op := by
  cases op with
  | none => exact .none
  | some o => exact .some (h o rfl).1 (word_is _) (h o rfl).2

theorem conditionG_print (cond : Option LoopCondition) (h : ∀ c ∈ cond, c.WF) :
    ConditionG (printCondition cond) cond := by
  match cond, h with
  | none, _ => exact .none
  | some (.til e), h => exact .til (word_is _) (h _ rfl)
  | some (.wile e), h => exact .wile (word_is _) (h _ rfl)

theorem followAll_print {rest : List Token} : (es : List Expr) → (∀ e ∈ es, e.WF) → (∀ e ∈ es.dropLast, ¬ e.Open) →
    (rest ≠ [] → ∀ e ∈ es, ¬ e.Open) → NoSlot rest → FollowAll es rest
  | [], _, _, _, _ => trivial
  | [e], h1, _, h3, h4 => by
    refine ⟨h1 e (by simp), ⟨fun ho => ?_, fun _ => by simpa using h4⟩, trivial⟩
    cases rest with
    | nil => rfl
    | cons t r => exact absurd ho (h3 (by simp) e (by simp))
  | e :: e' :: es, h1, h2, h3, h4 => by
    refine ⟨h1 e (by simp), ⟨fun ho => absurd ho (h2 e (by simp)), fun _ => ?_⟩, ?_⟩
    · rw [List.flatMap_cons, List.append_assoc]
      exact (h1 e' (by simp)).noSlot _
    · exact followAll_print (e' :: es) (fun x hx => h1 x (by simp [List.mem_cons.1 hx]))
        (fun x hx => h2 x (by rw [List.dropLast_cons_cons]; exact List.mem_cons_of_mem _ hx))
        (fun hr x hx => h3 hr x (by simp [List.mem_cons.1 hx])) h4

theorem visible_print (n : Visible) (h : (Node.visible n).WF) (hs : (Node.visible n).Shape) :
    NodeG (Node.visible n).print (.visible n) := by
  obtain ⟨t, es, ex⟩ := n
  refine .simple (.visible h.1 (followAll_print es h.2.1 hs.1 ?_ ?_) h.2.2 fun _ => rfl)
  · intro hne
    refine hs.2 ?_
    rintro (rfl : ex = none)
    exact hne rfl
  · cases ex with
    | none => exact NoSlot.nil
    | some x => exact NoSlot.cons_iff.2 (by rw [h.2.2 x rfl]; simp)

mutual

theorem Node.print_G : (node : Node) → node.WF → (∀ n ∈ node.nodes, n.Shape) → NodeG node.print node
  | .iHasA ⟨t, i, none⟩, h, _ => .simple (.declaration h.1 h.2.1 rfl)
  | .iHasA ⟨t, i, some (.type ty)⟩, h, _ => .simple (.declarationType h.1 h.2.1 (word_is _) (h.2.2 _ rfl))
  | .iHasA ⟨t, i, some (.expression e)⟩, h, _ =>
    .simple (.declarationExpr h.1 h.2.1 (word_is _) (h.2.2 _ rfl).1 .nil (h.2.2 _ rfl).2)
  | .hai ⟨t, version⟩, h, _ => .hai h
  | .imInYr t label op cond body endLabel, h, hs =>
    .loop h.1 h.2.1 (iterationG_print op h.2.2.1) (conditionG_print cond h.2.2.2.1)
      (printBlock_G body h.2.2.2.2.1 fun n hn => hs n (List.mem_cons_of_mem _ hn)) (word_is _) h.2.2.2.2.2
  | .bukkitSetSlot ⟨v, i, e⟩, h, _ => .simple (.setSlot h.1 (word_is _) h.2.1 (word_is _) h.2.2 .nil)
  | .variableAssignment ⟨v, e, r⟩, h, _ => .simple (.assignment h.1 h.2.1 h.2.2 .nil)
  | .visible n, h, hs => visible_print n h (hs _ (by simp [Node.nodes]))
  | .foundYr ⟨t, e⟩, h, _ => .simple (.foundYr h.1 h.2 .nil)
  | .wtf t omgs omgWtf, h, hs =>
    .switch h.1 question_is
      (printOmgs_G omgs h.2.1 fun n hn => hs n (List.mem_cons_of_mem _ (List.mem_append_left _ hn)))
      (printOmgWtf_G omgWtf h.2.2 fun n hn => hs n (List.mem_cons_of_mem _ (List.mem_append_right _ hn))) (word_is _)
  | .oRly t yaRly noWai mebbes, h, hs =>
    .conditional h.1 question_is
      (printYaRly_G yaRly h.2.1 fun n hn => hs n (List.mem_cons_of_mem _ (List.mem_append_left _ hn)))
      (printMebbes_G mebbes h.2.2.1 fun n hn =>
        hs n (List.mem_cons_of_mem _ (List.mem_append_right _ (List.mem_append_left _ hn))))
      (printNoWai_G noWai h.2.2.2 fun n hn =>
        hs n (List.mem_cons_of_mem _ (List.mem_append_right _ (List.mem_append_right _ hn)))) (word_is _)
  | .iIz ⟨t, v, es⟩, h, hs =>
    .simple (.call h.1 h.2.1
      (argsG_print es h.2.2 (hs (.iIz ⟨t, v, es⟩) (by simp [Node.nodes])) (NoSlot.keyword (word_is .MKAY))) (word_is _))
  | .howIzI t name params body, h, hs =>
    .function h.1 h.2.1 (paramsG_print params h.2.2.1)
      (printBlock_G body h.2.2.2 fun n hn => hs n (List.mem_cons_of_mem _ hn)) (word_is _)
  | .gtfo _, h, _ => .simple (.gtfo h)
  | .gimmeh ⟨t, v⟩, h, _ => .simple (.gimmeh h.1 h.2 NoSlot.nil)
  | .expression (.value (.variableAccess v)), h, _ => .simple (.access (by simpa [Node.WF, Expr.WF] using h) rfl)
  | .expression (.value (.literal t)), h, _ => .simple (.expression h .nil (by simp))
  | .expression (.unary op e), h, _ => .simple (.expression h .nil (by simp))
  | .expression (.binary op l an r), h, _ => .simple (.expression h .nil (by simp))
  | .expression (.nary op es mkay), h, _ => .simple (.expression h .nil (by simp))
  | .astError e, _, hs => (hs (.astError e) (by simp [Node.nodes])).elim
  | .kThxBye _, h, _ => .simple (.kThxBye h)

theorem printOmgs_G : (omgs : List WtfOmg) → wfOmgs omgs → (∀ n ∈ nodesOmgs omgs, n.Shape) →
    OmgsG (printOmgs omgs) omgs
  | [], _, _ => .nil
  | .mk _ _ b :: rest, h, hs => .cons h.1 h.2.1
      (printBlock_G b h.2.2.1 fun n hn => hs n (List.mem_append_left _ hn))
      (printOmgs_G rest h.2.2.2 fun n hn => hs n (List.mem_append_right _ hn))

theorem printOmgWtf_G : (o : Option WtfOmgWtf) → wfOmgWtf o → (∀ n ∈ nodesOmgWtf o, n.Shape) →
    OmgWtfG (printOmgWtf o) o
  | none, _, _ => .none
  | some (.mk _ b), h, hs => .some h.1 (printBlock_G b h.2 hs)

theorem printYaRly_G : (o : Option YaRly) → wfYaRly o → (∀ n ∈ nodesYaRly o, n.Shape) → YaRlyG (printYaRly o) o
  | none, _, _ => .none
  | some (.mk _ b), h, hs => .some h.1 (printBlock_G b h.2 hs)

theorem printMebbes_G : (mebbes : List Mebbe) → wfMebbes mebbes → (∀ n ∈ nodesMebbes mebbes, n.Shape) →
    MebbesG (printMebbes mebbes) mebbes
  | [], _, _ => .nil
  | .mk _ _ b :: rest, h, hs => .cons h.1 h.2.1
      (printBlock_G b h.2.2.1 fun n hn => hs n (List.mem_append_left _ hn))
      (printMebbes_G rest h.2.2.2 fun n hn => hs n (List.mem_append_right _ hn))

theorem printNoWai_G : (o : Option NoWai) → wfNoWai o → (∀ n ∈ nodesNoWai o, n.Shape) → NoWaiG (printNoWai o) o
  | none, _, _ => .none
  | some (.mk _ b), h, hs => .some h.1 (printBlock_G b h.2 hs)

theorem printBlock_G : (nodes : List Node) → wfBlock nodes → (∀ n ∈ allNodes nodes, n.Shape) →
    BlockG (printBlock nodes) nodes
  | [], _, _ => .skip .nil
  | node :: rest, h, hs => .nodes (node.print_G h.1 fun n hn => hs n (List.mem_append_left _ hn))
      (printNodes_G rest h.2 fun n hn => hs n (List.mem_append_right _ hn))

theorem printNodes_G : (nodes : List Node) → wfBlock nodes → (∀ n ∈ allNodes nodes, n.Shape) →
    NodesG (printNodes nodes) nodes
  | [], _, _ => .nil
  | node :: rest, h, hs => .cons (node.print_G h.1 fun n hn => hs n (List.mem_append_left _ hn))
      (printNodes_G rest h.2 fun n hn => hs n (List.mem_append_right _ hn))

end

/-! ## The tokens of what is written down -/

/-- Every token has the property. -/
def AllToks (P : Token → Prop) (ts : List Token) : Prop := ∀ t ∈ ts, P t

theorem AllToks.nil {P : Token → Prop} : AllToks P [] := by simp [AllToks]

theorem allToks_append {P : Token → Prop} {a b : List Token} : AllToks P (a ++ b) ↔ AllToks P a ∧ AllToks P b := by
  simp only [AllToks, List.mem_append]
  exact ⟨fun h => ⟨fun t ht => h t (.inl ht), fun t ht => h t (.inr ht)⟩, fun h t ht => ht.elim (h.1 t) (h.2 t)⟩

theorem allToks_cons {P : Token → Prop} {t : Token} {b : List Token} : AllToks P (t :: b) ↔ P t ∧ AllToks P b := by
  simp [AllToks]

/-- Every statement has tokens with the property only. -/
def AllStmts (P : Token → Prop) (L : List (List Token)) : Prop := ∀ st ∈ L, AllToks P st

theorem AllStmts.nil {P : Token → Prop} : AllStmts P [] := by simp [AllStmts]

theorem allStmts_append {P : Token → Prop} {a b : List (List Token)} :
    AllStmts P (a ++ b) ↔ AllStmts P a ∧ AllStmts P b := by
  simp only [AllStmts, List.mem_append]
  exact ⟨fun h => ⟨fun t ht => h t (.inl ht), fun t ht => h t (.inr ht)⟩, fun h t ht => ht.elim (h.1 t) (h.2 t)⟩

theorem allStmts_cons {P : Token → Prop} {st : List Token} {b : List (List Token)} :
    AllStmts P (st :: b) ↔ AllToks P st ∧ AllStmts P b := by
  simp [AllStmts]

/-- The property holds for the tokens that `print` adds. -/
structure Adds (P : Token → Prop) : Prop where
  word : ∀ k ∈ [Keyword.YR, .AN, .MKAY, .ITZ, .HAS_A, .TIL, .WILE, .IM_OUTTA_YR, .OIC, .IF_U_SAY_SO], P (word k)
  question : P question

variable {P : Token → Prop}

theorem allToks_printArgs (hP : Adds P) : (es : List Expr) → AllToks P (es.flatMap (·.toks)) →
    AllToks P (printArgs es)
  | [], _ => .nil
  | [e], h => allToks_cons.2 ⟨hP.word _ (by simp), by simpa using h⟩
  | e :: e' :: es, h => by
    rw [List.flatMap_cons, allToks_append] at h
    exact allToks_cons.2 ⟨hP.word _ (by simp), allToks_append.2 ⟨h.1, allToks_cons.2 ⟨hP.word _ (by simp),
      allToks_printArgs hP (e' :: es) h.2⟩⟩⟩

theorem allToks_printParams (hP : Adds P) : (is : List Identifier) → AllToks P (is.flatMap (·.toks)) →
    AllToks P (printParams is)
  | [], _ => .nil
  | [i], h => allToks_cons.2 ⟨hP.word _ (by simp), by simpa using h⟩
  | i :: i' :: is, h => by
    rw [List.flatMap_cons, allToks_append] at h
    exact allToks_cons.2 ⟨hP.word _ (by simp), allToks_append.2 ⟨h.1, allToks_cons.2 ⟨hP.word _ (by simp),
      allToks_printParams hP (i' :: is) h.2⟩⟩⟩

theorem allToks_printIteration (hP : Adds P) (op : Option LoopIterationOperation)
    (h : AllToks P (op.toList.flatMap (·.toks))) : AllToks P (printIteration op) := by
  cases op with
  | none => exact .nil
  | some o =>
    simp only [Option.toList_some, List.flatMap_singleton, LoopIterationOperation.toks, allToks_cons] at h
    exact allToks_cons.2 ⟨h.1, allToks_cons.2 ⟨hP.word _ (by simp), h.2⟩⟩

theorem allToks_printCondition (hP : Adds P) (cond : Option LoopCondition)
    (h : AllToks P (cond.toList.flatMap (·.toks))) : AllToks P (printCondition cond) := by
  match cond, h with
  | none, _ => exact .nil
  | some (.til e), h => exact allToks_cons.2 ⟨hP.word _ (by simp), by simpa [LoopCondition.toks] using h⟩
  | some (.wile e), h => exact allToks_cons.2 ⟨hP.word _ (by simp), by simpa [LoopCondition.toks] using h⟩

mutual

theorem Node.allStmts_print (hP : Adds P) : (node : Node) → AllToks P node.toks → AllStmts P node.print
  | .iHasA ⟨t, i, none⟩, h => by simpa [Node.print, Node.toks, allStmts_cons, AllStmts.nil] using h
  | .iHasA ⟨t, i, some v⟩, h => by
    simp only [Node.toks, allToks_cons, allToks_append, Option.toList_some, List.flatMap_singleton] at h
    simp only [Node.print, allStmts_cons, allToks_cons, allToks_append]
    exact ⟨⟨h.1, h.2.1, hP.word _ (by simp), h.2.2⟩, .nil⟩
  | .hai n, h => by
    simp only [Node.print, allStmts_cons]
    exact ⟨h, .nil, .nil⟩
  | .imInYr t label op cond body endLabel, h => by
    simp only [Node.toks, allToks_cons, allToks_append] at h
    simp only [Node.print, allStmts_cons, allToks_cons, allToks_append, allStmts_append]
    exact ⟨⟨h.1, h.2.1, allToks_printIteration hP op h.2.2.1, allToks_printCondition hP cond h.2.2.2.1⟩,
      allStmts_printBlock hP body h.2.2.2.2.1, ⟨hP.word _ (by simp), h.2.2.2.2.2.1, .nil⟩, .nil⟩
  | .bukkitSetSlot n, h => by
    simp only [Node.toks, allToks_append] at h
    simp only [Node.print, allStmts_cons, allToks_cons, allToks_append]
    exact ⟨⟨h.1, hP.word _ (by simp), h.2.1, hP.word _ (by simp), h.2.2⟩, .nil⟩
  | .variableAssignment n, h => allStmts_cons.2 ⟨h, .nil⟩
  | .visible n, h => allStmts_cons.2 ⟨h, .nil⟩
  | .foundYr n, h => allStmts_cons.2 ⟨h, .nil⟩
  | .wtf t omgs omgWtf, h => by
    simp only [Node.toks, allToks_cons, allToks_append] at h
    simp only [Node.print, allStmts_cons, allToks_cons, allStmts_append]
    exact ⟨⟨h.1, hP.question, .nil⟩, allStmts_printOmgs hP omgs h.2.1, allStmts_printOmgWtf hP omgWtf h.2.2,
      ⟨hP.word _ (by simp), .nil⟩, .nil, .nil⟩
  | .oRly t yaRly noWai mebbes, h => by
    simp only [Node.toks, allToks_cons, allToks_append] at h
    simp only [Node.print, allStmts_cons, allToks_cons, allStmts_append]
    exact ⟨⟨h.1, hP.question, .nil⟩, allStmts_printYaRly hP yaRly h.2.1, allStmts_printMebbes hP mebbes h.2.2.1,
      allStmts_printNoWai hP noWai h.2.2.2, ⟨hP.word _ (by simp), .nil⟩, .nil⟩
  | .iIz n, h => by
    simp only [Node.toks, allToks_cons, allToks_append] at h
    simp only [Node.print, allStmts_cons, allToks_cons, allToks_append]
    exact ⟨⟨h.1, h.2.1, allToks_printArgs hP _ h.2.2, hP.word _ (by simp), .nil⟩, .nil⟩
  | .howIzI t name params body, h => by
    simp only [Node.toks, allToks_cons, allToks_append] at h
    simp only [Node.print, allStmts_cons, allToks_cons, allToks_append, allStmts_append]
    exact ⟨⟨h.1, h.2.1, allToks_printParams hP _ h.2.2.1⟩, allStmts_printBlock hP body h.2.2.2,
      ⟨hP.word _ (by simp), .nil⟩, .nil, .nil⟩
  | .gtfo t, h => allStmts_cons.2 ⟨h, .nil⟩
  | .gimmeh n, h => allStmts_cons.2 ⟨h, .nil⟩
  | .expression e, h => allStmts_cons.2 ⟨h, .nil⟩
  | .astError e, _ => .nil
  | .kThxBye t, h => allStmts_cons.2 ⟨h, .nil⟩

theorem allStmts_printOmgs (hP : Adds P) : (omgs : List WtfOmg) → AllToks P (toksOmgs omgs) →
    AllStmts P (printOmgs omgs)
  | [], _ => .nil
  | .mk t e b :: rest, h => by
    simp only [toksOmgs, allToks_cons, allToks_append] at h
    simp only [printOmgs, allStmts_cons, allToks_cons, allStmts_append]
    exact ⟨⟨h.1, h.2.1⟩, allStmts_printBlock hP b h.2.2.1, allStmts_printOmgs hP rest h.2.2.2⟩

theorem allStmts_printOmgWtf (hP : Adds P) : (o : Option WtfOmgWtf) → AllToks P (toksOmgWtf o) →
    AllStmts P (printOmgWtf o)
  | none, _ => .nil
  | some (.mk t b), h => by
    simp only [toksOmgWtf, allToks_cons] at h
    exact allStmts_cons.2 ⟨allToks_cons.2 ⟨h.1, .nil⟩, allStmts_printBlock hP b h.2⟩

theorem allStmts_printYaRly (hP : Adds P) : (o : Option YaRly) → AllToks P (toksYaRly o) → AllStmts P (printYaRly o)
  | none, _ => .nil
  | some (.mk t b), h => by
    simp only [toksYaRly, allToks_cons] at h
    exact allStmts_cons.2 ⟨allToks_cons.2 ⟨h.1, .nil⟩, allStmts_printBlock hP b h.2⟩

theorem allStmts_printMebbes (hP : Adds P) : (mebbes : List Mebbe) → AllToks P (toksMebbes mebbes) →
    AllStmts P (printMebbes mebbes)
  | [], _ => .nil
  | .mk t e b :: rest, h => by
    simp only [toksMebbes, allToks_cons, allToks_append] at h
    simp only [printMebbes, allStmts_cons, allToks_cons, allStmts_append]
    exact ⟨⟨h.1, h.2.1⟩, allStmts_printBlock hP b h.2.2.1, allStmts_printMebbes hP rest h.2.2.2⟩

theorem allStmts_printNoWai (hP : Adds P) : (o : Option NoWai) → AllToks P (toksNoWai o) → AllStmts P (printNoWai o)
  | none, _ => .nil
  | some (.mk t b), h => by
    simp only [toksNoWai, allToks_cons] at h
    exact allStmts_cons.2 ⟨allToks_cons.2 ⟨h.1, .nil⟩, allStmts_printBlock hP b h.2⟩

theorem allStmts_printBlock (hP : Adds P) : (nodes : List Node) → AllToks P (toksBlock nodes) →
    AllStmts P (printBlock nodes)
  | [], _ => allStmts_cons.2 ⟨.nil, .nil⟩
  | node :: rest, h => by
    simp only [toksBlock, allToks_append] at h
    exact allStmts_append.2 ⟨node.allStmts_print hP h.1, allStmts_printNodes hP rest h.2⟩

theorem allStmts_printNodes (hP : Adds P) : (nodes : List Node) → AllToks P (toksBlock nodes) →
    AllStmts P (printNodes nodes)
  | [], _ => .nil
  | node :: rest, h => by
    simp only [toksBlock, allToks_append] at h
    exact allStmts_append.2 ⟨node.allStmts_print hP h.1, allStmts_printNodes hP rest h.2⟩

end

/-! ## Trees hold no separators -/

/-- Not a comma and not an ellipsis. -/
def Token.Plain (t : Token) : Prop := t.tokenType ≠ .comma ∧ t.tokenType ≠ .ellipsis

theorem Token.Is.plain {t : Token} {k : Keyword} (h : t.Is k) : t.Plain := by
  have h : t.tokenType = _ := h
  constructor <;> (rw [h]; simp)

theorem Token.IsIdent.plain {t : Token} (h : t.IsIdent) : t.Plain := by
  obtain ⟨n, h⟩ := h
  constructor <;> (rw [h]; simp)

theorem adds_plain : Adds Token.Plain :=
  ⟨fun _ _ => (word_is _).plain, by constructor <;> simp [question, bare]⟩

theorem allToks_toList {o : Option Token} (h : ∀ t ∈ o, P t) : AllToks P o.toList := by
  cases o with
  | none => exact .nil
  | some t => exact allToks_cons.2 ⟨h t rfl, .nil⟩

theorem Identifier.WF.plain {i : Identifier} (h : i.WF) : AllToks Token.Plain i.toks := by
  unfold Identifier.toks
  exact allToks_append.2 ⟨allToks_toList fun t ht => (h.2 t ht).plain, allToks_cons.2 ⟨h.1.plain, .nil⟩⟩

theorem VariableAccess.WF.plain {v : VariableAccess} (h : v.WF) : AllToks Token.Plain v.toks := by
  unfold VariableAccess.toks
  refine allToks_append.2 ⟨h.1.plain, ?_⟩
  intro t ht
  obtain ⟨s, h1, h2⟩ := List.mem_flatMap.1 ht
  obtain ⟨h3, h4⟩ := h.2 s h1
  rcases List.mem_cons.1 h2 with rfl | h2
  · constructor <;> (rw [h3]; simp)
  · exact h4.plain t h2

mutual

theorem Expr.WF.plain : {e : Expr} → e.WF → AllToks Token.Plain e.toks
  | .value (.variableAccess v), h => by
    have h : v.WF := h
    exact h.plain
  | .value (.literal t), h => by
    refine allToks_cons.2 ⟨?_, .nil⟩
    rcases h with ⟨v, h⟩ | h
    · constructor <;> (rw [h]; simp)
    · exact h.plain
  | .unary op e, h => by
    simp only [Expr.toks]
    exact allToks_cons.2 ⟨h.1.plain, h.2.plain⟩
  | .binary op l an r, h => by
    simp only [Expr.toks]
    obtain ⟨h1, h2, h3, h4, h5⟩ := h
    exact allToks_cons.2 ⟨h1.plain, allToks_append.2 ⟨h2.plain, allToks_append.2
      ⟨allToks_toList fun t ht => (h4 t ht).plain, h5.plain⟩⟩⟩
  | .nary op es mkay, h => by
    simp only [Expr.toks]
    obtain ⟨h1, h2, h3⟩ := h
    exact allToks_cons.2 ⟨h1.plain, allToks_append.2 ⟨wfOperands_plain h2,
      allToks_toList fun t ht => (h3 t ht).plain⟩⟩

theorem wfOperands_plain : {es : List Operand} → {closed : Bool} → wfOperands es closed →
    AllToks Token.Plain (toksOperands es)
  | [], _, _ => by simp only [toksOperands]; exact .nil
  | .mk e an :: es, closed, h => by
    simp only [toksOperands]
    obtain ⟨h1, h2, h3, h4⟩ := h
    exact allToks_append.2 ⟨h1.plain, allToks_append.2
      ⟨allToks_toList fun t ht => (h2 t ht).plain, wfOperands_plain h4⟩⟩

end

theorem allToks_flatMap {α : Type} {f : α → List Token} {l : List α} (h : ∀ x ∈ l, AllToks P (f x)) :
    AllToks P (l.flatMap f) := by
  intro t ht
  obtain ⟨x, h1, h2⟩ := List.mem_flatMap.1 ht
  exact h x h1 t h2

theorem IHasAInitialValue.WF.plain : {v : IHasAInitialValue} → v.WF → AllToks Token.Plain v.toks
  | .expression _, h => h.1.plain
  | .type t, h => allToks_cons.2 ⟨Token.Is.plain (k := t.keyword) h, .nil⟩

theorem LoopCondition.WF.plain : {v : LoopCondition} → v.WF → AllToks Token.Plain v.toks
  | .til _, h => Expr.WF.plain h
  | .wile _, h => Expr.WF.plain h

mutual

theorem Node.plain : (node : Node) → node.WF → (∀ n ∈ node.nodes, n.Shape) → AllToks Token.Plain node.toks
  | .iHasA ⟨t, i, v⟩, h, _ => allToks_cons.2 ⟨h.1.plain, allToks_append.2 ⟨h.2.1.plain,
      allToks_flatMap fun x hx => (h.2.2 x (by simpa using hx)).plain⟩⟩
  | .hai n, h, hs => allToks_cons.2 ⟨Token.Is.plain h, hs (.hai n) (by simp [Node.nodes])⟩
  | .imInYr t label op cond body endLabel, h, hs => allToks_cons.2 ⟨h.1.plain, allToks_cons.2 ⟨h.2.1.plain,
      allToks_append.2 ⟨allToks_flatMap fun x hx => by
        have := h.2.2.1 x (by simpa using hx)
        exact allToks_cons.2 ⟨this.1.plain, this.2.plain⟩,
      allToks_append.2 ⟨allToks_flatMap fun x hx => (h.2.2.2.1 x (by simpa using hx)).plain,
        allToks_append.2 ⟨plain_block body h.2.2.2.2.1 fun n hn => hs n (List.mem_cons_of_mem _ hn),
          allToks_cons.2 ⟨h.2.2.2.2.2.plain, .nil⟩⟩⟩⟩⟩⟩
  | .bukkitSetSlot n, h, _ => allToks_append.2 ⟨h.1.plain, allToks_append.2 ⟨h.2.1.plain, h.2.2.plain⟩⟩
  | .variableAssignment n, h, _ => allToks_append.2 ⟨h.1.plain, allToks_cons.2 ⟨h.2.1.plain, h.2.2.plain⟩⟩
  | .visible n, h, _ => allToks_cons.2 ⟨h.1.plain, allToks_append.2 ⟨allToks_flatMap fun x hx => (h.2.1 x hx).plain,
      allToks_toList fun t ht => by constructor <;> (rw [h.2.2 t ht]; simp)⟩⟩
  | .foundYr n, h, _ => allToks_cons.2 ⟨h.1.plain, h.2.plain⟩
  | .wtf t omgs omgWtf, h, hs => allToks_cons.2 ⟨h.1.plain, allToks_append.2
      ⟨plain_omgs omgs h.2.1 fun n hn => hs n (List.mem_cons_of_mem _ (List.mem_append_left _ hn)),
        plain_omgWtf omgWtf h.2.2 fun n hn => hs n (List.mem_cons_of_mem _ (List.mem_append_right _ hn))⟩⟩
  | .oRly t yaRly noWai mebbes, h, hs => allToks_cons.2 ⟨h.1.plain, allToks_append.2
      ⟨plain_yaRly yaRly h.2.1 fun n hn => hs n (List.mem_cons_of_mem _ (List.mem_append_left _ hn)),
        allToks_append.2 ⟨plain_mebbes mebbes h.2.2.1 fun n hn =>
            hs n (List.mem_cons_of_mem _ (List.mem_append_right _ (List.mem_append_left _ hn))),
          plain_noWai noWai h.2.2.2 fun n hn =>
            hs n (List.mem_cons_of_mem _ (List.mem_append_right _ (List.mem_append_right _ hn)))⟩⟩⟩
  | .iIz n, h, _ => allToks_cons.2 ⟨h.1.plain, allToks_append.2 ⟨h.2.1.plain,
      allToks_flatMap fun x hx => (h.2.2 x hx).plain⟩⟩
  | .howIzI t name params body, h, hs => allToks_cons.2 ⟨h.1.plain, allToks_append.2 ⟨h.2.1.plain,
      allToks_append.2 ⟨allToks_flatMap fun x hx => (h.2.2.1 x hx).plain,
        plain_block body h.2.2.2 fun n hn => hs n (List.mem_cons_of_mem _ hn)⟩⟩⟩
  | .gtfo _, h, _ => allToks_cons.2 ⟨Token.Is.plain h, .nil⟩
  | .gimmeh n, h, _ => allToks_cons.2 ⟨h.1.plain, h.2.plain⟩
  | .expression e, h, _ => Expr.WF.plain h
  | .astError e, _, hs => (hs (.astError e) (by simp [Node.nodes])).elim
  | .kThxBye _, h, _ => allToks_cons.2 ⟨Token.Is.plain h, .nil⟩

theorem plain_omgs : (omgs : List WtfOmg) → wfOmgs omgs → (∀ n ∈ nodesOmgs omgs, n.Shape) →
    AllToks Token.Plain (toksOmgs omgs)
  | [], _, _ => .nil
  | .mk _ _ b :: rest, h, hs => allToks_cons.2 ⟨h.1.plain, allToks_append.2 ⟨h.2.1.plain, allToks_append.2
      ⟨plain_block b h.2.2.1 fun n hn => hs n (List.mem_append_left _ hn),
        plain_omgs rest h.2.2.2 fun n hn => hs n (List.mem_append_right _ hn)⟩⟩⟩

theorem plain_omgWtf : (o : Option WtfOmgWtf) → wfOmgWtf o → (∀ n ∈ nodesOmgWtf o, n.Shape) →
    AllToks Token.Plain (toksOmgWtf o)
  | none, _, _ => .nil
  | some (.mk _ b), h, hs => allToks_cons.2 ⟨h.1.plain, plain_block b h.2 hs⟩

theorem plain_yaRly : (o : Option YaRly) → wfYaRly o → (∀ n ∈ nodesYaRly o, n.Shape) →
    AllToks Token.Plain (toksYaRly o)
  | none, _, _ => .nil
  | some (.mk _ b), h, hs => allToks_cons.2 ⟨h.1.plain, plain_block b h.2 hs⟩

theorem plain_mebbes : (mebbes : List Mebbe) → wfMebbes mebbes → (∀ n ∈ nodesMebbes mebbes, n.Shape) →
    AllToks Token.Plain (toksMebbes mebbes)
  | [], _, _ => .nil
  | .mk _ _ b :: rest, h, hs => allToks_cons.2 ⟨h.1.plain, allToks_append.2 ⟨h.2.1.plain, allToks_append.2
      ⟨plain_block b h.2.2.1 fun n hn => hs n (List.mem_append_left _ hn),
        plain_mebbes rest h.2.2.2 fun n hn => hs n (List.mem_append_right _ hn)⟩⟩⟩

theorem plain_noWai : (o : Option NoWai) → wfNoWai o → (∀ n ∈ nodesNoWai o, n.Shape) →
    AllToks Token.Plain (toksNoWai o)
  | none, _, _ => .nil
  | some (.mk _ b), h, hs => allToks_cons.2 ⟨h.1.plain, plain_block b h.2 hs⟩

theorem plain_block : (nodes : List Node) → wfBlock nodes → (∀ n ∈ allNodes nodes, n.Shape) →
    AllToks Token.Plain (toksBlock nodes)
  | [], _, _ => .nil
  | node :: rest, h, hs => allToks_append.2 ⟨node.plain h.1 fun n hn => hs n (List.mem_append_left _ hn),
      plain_block rest h.2 fun n hn => hs n (List.mem_append_right _ hn)⟩

end

/-! ## The shape of derived trees -/

theorem ArgsG.not_open {rest ts : List Token} {es : List Expr} (h : ArgsG rest ts es) (hr : rest ≠ []) :
    ∀ e ∈ es, ¬ e.Open := by
  induction h with
  | nil => simp
  | one _ _ h => exact fun x hx => by rw [List.mem_singleton.1 hx]; exact fun ho => hr (h.1 ho)
  | cons _ _ h1 _ _ ih =>
    intro x hx
    rcases List.mem_cons.1 hx with rfl | hx
    · exact h1
    · exact ih x hx

theorem FollowAll.not_open {rest : List Token} : (es : List Expr) → FollowAll es rest →
    (∀ e ∈ es.dropLast, ¬ e.Open) ∧ (rest ≠ [] → ∀ e ∈ es, ¬ e.Open)
  | [], _ => by simp
  | [e], h => by
    refine ⟨by simp, fun hr x hx => ?_⟩
    rw [List.mem_singleton.1 hx]
    intro ho
    have := h.2.1.1 ho
    exact hr (by simpa using this)
  | e :: e' :: es, h => by
    have ih := FollowAll.not_open (e' :: es) h.2.2
    have he : ¬ e.Open := by
      intro ho
      have := h.2.1.1 ho
      obtain ⟨t, ts, ht⟩ := e'.toks_ne
      rw [List.flatMap_cons, ht] at this
      cases this
    constructor
    · intro x hx
      rw [List.dropLast_cons_cons] at hx
      rcases List.mem_cons.1 hx with rfl | hx
      · exact he
      · exact ih.1 x hx
    · intro hr x hx
      rcases List.mem_cons.1 hx with rfl | hx
      · exact he
      · exact ih.2 hr x hx

theorem SimpleG.nodes_shape {ts : List Token} {node : Node} (h : SimpleG [] ts node) : ∀ n ∈ node.nodes, n.Shape := by
  cases h with
  | visible h1 h2 h3 h4 =>
    intro n hn
    cases List.mem_singleton.1 hn
    refine ⟨(FollowAll.not_open _ h2).1, fun hne => (FollowAll.not_open _ h2).2 ?_⟩
    intro he
    apply hne
    simpa using he
  | call h1 h2 h3 h4 =>
    intro n hn
    cases List.mem_singleton.1 hn
    exact h3.not_open (by simp)
  | _ => intro n hn; cases List.mem_singleton.1 hn; exact trivial

mutual

theorem NodeG.shape {L : List (List Token)} {node : Node} : NodeG L node → AllStmts Token.Plain L →
    ∀ n ∈ node.nodes, n.Shape
  | .simple h, _ => h.nodes_shape
  | .hai _, hP => by
    intro n hn
    cases List.mem_singleton.1 hn
    exact fun t ht => (allStmts_cons.1 hP).1 t (List.mem_cons_of_mem _ ht)
  | .loop _ _ _ _ h _ _, hP => by
    intro n hn
    rcases List.mem_cons.1 hn with rfl | hn
    · trivial
    · exact h.shape (allStmts_append.1 (allStmts_cons.1 hP).2).1 n hn
  | .function _ _ _ h _, hP => by
    intro n hn
    rcases List.mem_cons.1 hn with rfl | hn
    · trivial
    · exact h.shape (allStmts_append.1 (allStmts_cons.1 hP).2).1 n hn
  | .switch _ _ h1 h2 _, hP => by
    intro n hn
    have hP := allStmts_append.1 (allStmts_cons.1 hP).2
    rcases List.mem_cons.1 hn with rfl | hn
    · trivial
    · rcases List.mem_append.1 hn with hn | hn
      · exact h1.shape hP.1 n hn
      · exact h2.shape (allStmts_append.1 hP.2).1 n hn
  | .conditional _ _ h1 h2 h3 _, hP => by
    intro n hn
    have hP := allStmts_append.1 (allStmts_cons.1 hP).2
    rcases List.mem_cons.1 hn with rfl | hn
    · trivial
    · rcases List.mem_append.1 hn with hn | hn
      · exact h1.shape hP.1 n hn
      · rcases List.mem_append.1 hn with hn | hn
        · exact h2.shape (allStmts_append.1 hP.2).1 n hn
        · exact h3.shape (allStmts_append.1 (allStmts_append.1 hP.2).2).1 n hn

theorem OmgsG.shape {L : List (List Token)} {omgs : List WtfOmg} : OmgsG L omgs → AllStmts Token.Plain L →
    ∀ n ∈ nodesOmgs omgs, n.Shape
  | .nil, _ => by intro n hn; simp [nodesOmgs] at hn
  | .cons _ _ h1 h2, hP => by
    intro n hn
    have hP := allStmts_append.1 (allStmts_cons.1 hP).2
    rcases List.mem_append.1 hn with hn | hn
    · exact h1.shape hP.1 n hn
    · exact h2.shape hP.2 n hn

theorem OmgWtfG.shape {L : List (List Token)} {o : Option WtfOmgWtf} : OmgWtfG L o → AllStmts Token.Plain L →
    ∀ n ∈ nodesOmgWtf o, n.Shape
  | .none, _ => by intro n hn; simp [nodesOmgWtf] at hn
  | .some _ h, hP => h.shape (allStmts_cons.1 hP).2

theorem YaRlyG.shape {L : List (List Token)} {o : Option YaRly} : YaRlyG L o → AllStmts Token.Plain L →
    ∀ n ∈ nodesYaRly o, n.Shape
  | .none, _ => by intro n hn; simp [nodesYaRly] at hn
  | .some _ h, hP => h.shape (allStmts_cons.1 hP).2

theorem MebbesG.shape {L : List (List Token)} {mebbes : List Mebbe} : MebbesG L mebbes → AllStmts Token.Plain L →
    ∀ n ∈ nodesMebbes mebbes, n.Shape
  | .nil, _ => by intro n hn; simp [nodesMebbes] at hn
  | .cons _ _ h1 h2, hP => by
    intro n hn
    have hP := allStmts_append.1 (allStmts_cons.1 hP).2
    rcases List.mem_append.1 hn with hn | hn
    · exact h1.shape hP.1 n hn
    · exact h2.shape hP.2 n hn

theorem NoWaiG.shape {L : List (List Token)} {o : Option NoWai} : NoWaiG L o → AllStmts Token.Plain L →
    ∀ n ∈ nodesNoWai o, n.Shape
  | .none, _ => by intro n hn; simp [nodesNoWai] at hn
  | .some _ h, hP => h.shape (allStmts_cons.1 hP).2

theorem BlockG.shape {L : List (List Token)} {nodes : List Node} : BlockG L nodes → AllStmts Token.Plain L →
    ∀ n ∈ allNodes nodes, n.Shape
  | .nodes h1 h2, hP => by
    intro n hn
    have hP := allStmts_append.1 hP
    rcases List.mem_append.1 hn with hn | hn
    · exact h1.shape hP.1 n hn
    · exact h2.shape hP.2 n hn
  | .skip h, hP => h.shape (allStmts_cons.1 hP).2

theorem NodesG.shape {L : List (List Token)} {nodes : List Node} : NodesG L nodes → AllStmts Token.Plain L →
    ∀ n ∈ allNodes nodes, n.Shape
  | .nil, _ => by intro n hn; simp [allNodes] at hn
  | .cons h1 h2, hP => by
    intro n hn
    have hP := allStmts_append.1 hP
    rcases List.mem_append.1 hn with hn | hn
    · exact h1.shape hP.1 n hn
    · exact h2.shape hP.2 n hn

end

/-! ## Any list of statements is the list of statements of some tokens -/

/-- An ellipsis after the token, on the same line. -/
def Token.dots (t : Token) : Token := ⟨.ellipsis, t.range⟩

/-- Tokens for a list of statements: every token is followed by an ellipsis, so that the next one may be on any line,
and every statement is followed by a comma. -/
def dottedTokens (L : List (List Token)) : List Token :=
  L.flatMap fun st => bare .ellipsis :: (st.flatMap (fun t => [t, t.dots]) ++ [bare .comma])

theorem splitFrom_dotted {st rest : List Token} (h : AllToks Token.Plain st) (line : Int) :
    splitFrom (st.flatMap (fun t => [t, t.dots]) ++ bare .comma :: rest)
      (firstLine (st.flatMap (fun t => [t, t.dots]) ++ bare .comma :: rest) line) = ⟨st, splitGap rest⟩ := by
  induction st generalizing line with
  | nil => simp [splitFrom, bare]
  | cons t st ih =>
    obtain ⟨h1, h2⟩ := allToks_cons.1 h
    have hd : t.dots.tokenType = .ellipsis := rfl
    have hl : t.dots.range.start.line = t.range.start.line := rfl
    simp only [List.flatMap_cons, List.cons_append, List.nil_append, firstLine]
    rw [splitFrom, if_neg h1.1, if_pos rfl, if_neg h1.2, splitFrom, if_neg (by rw [hd]; simp), if_pos hl, if_pos hd,
      ih h2]
    rfl

theorem bare_ellipsis : (bare .ellipsis).tokenType = .ellipsis := rfl

theorem splitGap_dotted {L : List (List Token)} (h : AllStmts Token.Plain L) : splitGap (dottedTokens L) = L := by
  induction L with
  | nil => simp [dottedTokens, splitGap]
  | cons st L ih =>
    obtain ⟨h1, h2⟩ := allStmts_cons.1 h
    have he : dottedTokens (st :: L) =
        bare .ellipsis :: (st.flatMap (fun t => [t, t.dots]) ++ bare .comma :: dottedTokens L) := by
      simp [dottedTokens]
    rw [he, splitGap, if_neg (by simp [bare]), if_pos bare_ellipsis, splitFrom_dotted h1, ih h2]
    rfl

theorem stmt_dotted {L : List (List Token)} (h : AllStmts Token.Plain L) (k : Nat) :
    stmt (dottedTokens L) k = L.getD k [] := by
  cases L with
  | nil => cases k <;> rfl
  | cons st L =>
    have hg := splitGap_dotted h
    have he : dottedTokens (st :: L) =
        bare .ellipsis :: (st.flatMap (fun t => [t, t.dots]) ++ bare .comma :: dottedTokens L) := by
      simp [dottedTokens]
    rw [he, splitGap, if_neg (by simp [bare]), if_pos bare_ellipsis] at hg
    rw [stmt, split, he, splitFrom, if_neg (by simp [bare]), if_pos (by rw [firstLine]), if_pos bare_ellipsis]
    rw [splitFrom_dotted (allStmts_cons.1 h).1] at hg ⊢
    rw [hg]

end Lol
