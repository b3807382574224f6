import Verif.Parser.KeepSpec
import Verif.Parser.TreeLemmas

/-! # The tokens that the tree leaves out: lemmas -/

namespace Lol

theorem kept_append (a b : List Token) : kept (a ++ b) = kept a ++ kept b := List.filter_append ..

@[simp] theorem kept_nil : kept [] = [] := rfl

theorem kept_cons (t : Token) (b : List Token) : kept (t :: b) = kept [t] ++ kept b := kept_append [t] b

theorem Token.Is.not_kept {t : Token} {k : Keyword} (h : t.Is k)
    (hk : (markers.contains k || (k == .AN || k == .MKAY)) = true := by decide) : kept [t] = [] := by
  have h : t.tokenType = _ := h
  simp only [kept, Token.isMarker, Token.isAnOrMkay, h, List.filter_cons, hk]
  rfl

theorem Token.IsQuestion.not_kept {t : Token} (h : t.IsQuestion) : kept [t] = [] := by
  have h : t.tokenType = _ := h
  simp [kept, Token.isMarker, h]

theorem ArgsG.kept {rest ts : List Token} {es : List Expr} (h : ArgsG rest ts es) :
    kept ts = Lol.kept (es.flatMap Expr.toks) := by
  induction h with
  | nil => rfl
  | one h1 => rw [kept_cons, h1.not_kept]; simp
  | cons h1 _ _ h2 _ ih =>
    rw [kept_cons, h1.not_kept, kept_append, kept_cons, h2.not_kept, ih]
    simp [kept_append]

theorem ParamsG.kept {ts : List Token} {is : List Identifier} (h : ParamsG ts is) :
    kept ts = Lol.kept (is.flatMap Identifier.toks) := by
  induction h with
  | nil => rfl
  | one h1 => rw [kept_cons, h1.not_kept]; simp
  | cons h1 _ h2 _ ih =>
    rw [kept_cons, h1.not_kept, kept_append, kept_cons, h2.not_kept, ih]
    simp [kept_append]

theorem SimpleG.kept {rest ts : List Token} {node : Node} (h : SimpleG rest ts node) :
    kept ts = Lol.kept node.toks := by
  cases h with
  | declaration => simp [Node.toks]
  | @declarationType t i itz ty _ _ h3 _ =>
    simp only [Node.toks, Option.toList, List.flatMap_cons, List.flatMap_nil, IHasAInitialValue.toks, List.append_nil]
    rw [kept_cons, kept_append, kept_cons itz, h3.not_kept, kept_cons t (_ ++ _), kept_append]
    simp
  | @declarationExpr t i itz e _ _ h3 =>
    simp only [Node.toks, Option.toList, List.flatMap_cons, List.flatMap_nil, IHasAInitialValue.toks, List.append_nil]
    rw [kept_cons, kept_append, kept_cons itz, h3.not_kept, kept_cons t (_ ++ _), kept_append]
    simp
  | assignment => rfl
  | @setSlot v h i itz e _ h2 _ h3 =>
    simp only [Node.toks]
    rw [kept_append, kept_cons h, h2.not_kept, kept_append, kept_cons itz, h3.not_kept, kept_append, kept_append]
    simp
  | access => rfl
  | expression => rfl
  | visible => rfl
  | gimmeh => rfl
  | foundYr => rfl
  | @call t v ts es mkay _ _ h3 h4 =>
    simp only [Node.toks]
    rw [kept_cons, kept_append, kept_append, h3.kept, h4.not_kept, kept_cons t (v.toks ++ _), kept_append]
    simp
  | gtfo => rfl
  | kThxBye => rfl

theorem IterationG.kept {ts : List Token} {op : Option LoopIterationOperation} (h : IterationG ts op) :
    kept ts = Lol.kept (op.toList.flatMap (·.toks)) := by
  cases h with
  | none => rfl
  | @some op yr v _ h2 _ =>
    simp only [Option.toList, List.flatMap_cons, List.flatMap_nil, LoopIterationOperation.toks, List.append_nil]
    rw [kept_cons, kept_cons yr, h2.not_kept, kept_cons op.token v.toks]
    simp

theorem ConditionG.kept {ts : List Token} {c : Option LoopCondition} (h : ConditionG ts c) :
    kept ts = Lol.kept (c.toList.flatMap (·.toks)) := by
  cases h with
  | none => rfl
  | til h1 => rw [kept_cons, h1.not_kept]; simp [LoopCondition.toks]
  | wile h1 => rw [kept_cons, h1.not_kept]; simp [LoopCondition.toks]

/-- Brings the two sides into the same form. -/
theorem kept_flatten_append (a b : List (List Token)) : kept (a ++ b).flatten = kept a.flatten ++ kept b.flatten := by
  rw [List.flatten_append, kept_append]

theorem kept_flatten_cons (a : List Token) (b : List (List Token)) : kept (a :: b).flatten = kept a ++ kept b.flatten := by
  rw [List.flatten_cons, kept_append]

mutual

theorem NodeG.kept {L : List (List Token)} {node : Node} : NodeG L node → kept L.flatten = Lol.kept node.toks
  | .simple h => by simpa using h.kept
  | .hai h => by simp [Node.toks]
  | @NodeG.loop t label ops conds op cond body nodes c endLabel h1 h2 h3 h4 h5 h6 h7 => by
    have ih := h5.kept
    simp only [Node.toks]
    rw [kept_flatten_cons, kept_flatten_append, ih, kept_flatten_cons, kept_cons c, h6.not_kept, kept_cons t,
      kept_cons label, kept_append, h3.kept, h4.kept, kept_cons t (label :: _), kept_cons label (_ ++ _), kept_append,
      kept_append, kept_append]
    simp
  | @NodeG.function t i ps params body nodes c h1 h2 h3 h4 h5 => by
    have ih := h4.kept
    simp only [Node.toks]
    rw [kept_flatten_cons, kept_flatten_append, ih, kept_flatten_cons, h5.not_kept, kept_cons t, kept_append,
      h3.kept, kept_cons t (_ ++ _), kept_append, kept_append]
    simp
  | @NodeG.switch t q cases omgs dflt omgWtf c h1 h2 h3 h4 h5 => by
    have ih1 := h3.kept
    have ih2 := h4.kept
    simp only [Node.toks]
    rw [kept_flatten_cons, kept_flatten_append, kept_flatten_append, ih1, ih2, kept_flatten_cons, h5.not_kept,
      kept_cons t, h2.not_kept, kept_cons t (_ ++ _), kept_append]
    simp
  | @NodeG.conditional t q yes yaRly maybe mebbes no noWai c h1 h2 h3 h4 h5 h6 => by
    have ih1 := h3.kept
    have ih2 := h4.kept
    have ih3 := h5.kept
    simp only [Node.toks]
    rw [kept_flatten_cons, kept_flatten_append, kept_flatten_append, kept_flatten_append, ih1, ih2, ih3,
      kept_flatten_cons, h6.not_kept, kept_cons t, h2.not_kept, kept_cons t (_ ++ _), kept_append, kept_append]
    simp

theorem OmgsG.kept {L : List (List Token)} {omgs : List WtfOmg} : OmgsG L omgs → kept L.flatten = Lol.kept (toksOmgs omgs)
  | .nil => by simp [toksOmgs]
  | @OmgsG.cons t e body nodes rest omgs h1 h2 h3 h4 => by
    have ih1 := h3.kept
    have ih2 := h4.kept
    simp only [toksOmgs]
    rw [kept_flatten_cons, kept_flatten_append, ih1, ih2, kept_cons t, kept_cons t (_ ++ _), kept_append, kept_append]
    simp

theorem OmgWtfG.kept {L : List (List Token)} {d : Option WtfOmgWtf} : OmgWtfG L d → kept L.flatten = Lol.kept (toksOmgWtf d)
  | .none => by simp [toksOmgWtf]
  | @OmgWtfG.some t body nodes h1 h2 => by
    have ih := h2.kept
    simp only [toksOmgWtf]
    rw [kept_flatten_cons, ih, kept_cons t (toksBlock _)]

theorem YaRlyG.kept {L : List (List Token)} {d : Option YaRly} : YaRlyG L d → kept L.flatten = Lol.kept (toksYaRly d)
  | .none => by simp [toksYaRly]
  | @YaRlyG.some t body nodes h1 h2 => by
    have ih := h2.kept
    simp only [toksYaRly]
    rw [kept_flatten_cons, ih, kept_cons t (toksBlock _)]

theorem MebbesG.kept {L : List (List Token)} {ms : List Mebbe} : MebbesG L ms → kept L.flatten = Lol.kept (toksMebbes ms)
  | .nil => by simp [toksMebbes]
  | @MebbesG.cons t e body nodes rest ms h1 h2 h3 h4 => by
    have ih1 := h3.kept
    have ih2 := h4.kept
    simp only [toksMebbes]
    rw [kept_flatten_cons, kept_flatten_append, ih1, ih2, kept_cons t, kept_cons t (_ ++ _), kept_append, kept_append]
    simp

theorem NoWaiG.kept {L : List (List Token)} {d : Option NoWai} : NoWaiG L d → kept L.flatten = Lol.kept (toksNoWai d)
  | .none => by simp [toksNoWai]
  | @NoWaiG.some t body nodes h1 h2 => by
    have ih := h2.kept
    simp only [toksNoWai]
    rw [kept_flatten_cons, ih, kept_cons t (toksBlock _)]

theorem BlockG.kept {L : List (List Token)} {nodes : List Node} : BlockG L nodes → kept L.flatten = Lol.kept (toksBlock nodes)
  | .nodes h1 h2 => by
    have ih1 := h1.kept
    have ih2 := h2.kept
    simp only [toksBlock]
    rw [kept_flatten_append, ih1, ih2, kept_append]
  | .skip h => by
    have ih := h.kept
    rw [kept_flatten_cons, ih]
    simp

theorem NodesG.kept {L : List (List Token)} {nodes : List Node} : NodesG L nodes → kept L.flatten = Lol.kept (toksBlock nodes)
  | .nil => by simp [toksBlock]
  | .cons h1 h2 => by
    have ih1 := h1.kept
    have ih2 := h2.kept
    simp only [toksBlock]
    rw [kept_flatten_append, ih1, ih2, kept_append]

end

/-! ## No markers in the tree -/

/-- No token is a marker. -/
def NoMark (ts : List Token) : Prop := ∀ t ∈ ts, t.isMarker = false

theorem NoMark.nil : NoMark [] := by simp [NoMark]

theorem noMark_append {a b : List Token} : NoMark (a ++ b) ↔ NoMark a ∧ NoMark b := by
  simp only [NoMark, List.mem_append]
  exact ⟨fun h => ⟨fun t ht => h t (.inl ht), fun t ht => h t (.inr ht)⟩, fun h t ht => ht.elim (h.1 t) (h.2 t)⟩

theorem noMark_cons {t : Token} {b : List Token} : NoMark (t :: b) ↔ t.isMarker = false ∧ NoMark b := by
  simp [NoMark]

theorem Token.Is.noMark {t : Token} {k : Keyword} (h : t.Is k) (hk : markers.contains k = false := by decide) :
    t.isMarker = false := by
  have h : t.tokenType = _ := h
  simp only [Token.isMarker, h]
  exact hk

theorem Token.IsIdent.noMark {t : Token} (h : t.IsIdent) : t.isMarker = false := by
  obtain ⟨n, h⟩ := h
  simp [Token.isMarker, h]

theorem noMark_toList {o : Option Token} (h : ∀ t ∈ o, t.isMarker = false) : NoMark o.toList := by
  cases o with
  | none => exact .nil
  | some t => exact noMark_cons.2 ⟨h t rfl, .nil⟩

theorem Identifier.WF.noMark {i : Identifier} (h : i.WF) : NoMark i.toks := by
  unfold Identifier.toks
  exact noMark_append.2 ⟨noMark_toList fun t ht => (h.2 t ht).noMark, noMark_cons.2 ⟨h.1.noMark, .nil⟩⟩

theorem VariableAccess.WF.noMark {v : VariableAccess} (h : v.WF) : NoMark v.toks := by
  unfold VariableAccess.toks
  refine noMark_append.2 ⟨h.1.noMark, ?_⟩
  intro t ht
  obtain ⟨s, h1, h2⟩ := List.mem_flatMap.1 ht
  obtain ⟨h3, h4⟩ := h.2 s h1
  rcases List.mem_cons.1 h2 with rfl | h2
  · simp [Token.isMarker, h3]
  · exact h4.noMark t h2

mutual

theorem Expr.WF.noMark : {e : Expr} → e.WF → NoMark e.toks
  | .value (.variableAccess v), h => by
    have h : v.WF := h
    exact h.noMark
  | .value (.literal t), h => by
    refine noMark_cons.2 ⟨?_, .nil⟩
    rcases h with ⟨v, h⟩ | h
    · simp [Token.isMarker, h]
    · exact h.noMark
  | .unary op e, h => by
    simp only [Expr.toks]
    exact noMark_cons.2 ⟨h.1.noMark (by cases op; rfl), h.2.noMark⟩
  | .binary op l an r, h => by
    simp only [Expr.toks]
    obtain ⟨h1, h2, h3, h4, h5⟩ := h
    exact noMark_cons.2 ⟨h1.noMark (by cases op <;> rfl), noMark_append.2 ⟨h2.noMark, noMark_append.2
      ⟨noMark_toList fun t ht => (h4 t ht).noMark, h5.noMark⟩⟩⟩
  | .nary op es mkay, h => by
    simp only [Expr.toks]
    obtain ⟨h1, h2, h3⟩ := h
    exact noMark_cons.2 ⟨h1.noMark (by cases op <;> rfl), noMark_append.2 ⟨wfOperands_noMark h2,
      noMark_toList fun t ht => (h3 t ht).noMark⟩⟩

theorem wfOperands_noMark : {es : List Operand} → {closed : Bool} → wfOperands es closed → NoMark (toksOperands es)
  | [], _, _ => by simp only [toksOperands]; exact .nil
  | .mk e an :: es, closed, h => by
    simp only [toksOperands]
    obtain ⟨h1, h2, h3, h4⟩ := h
    exact noMark_append.2 ⟨h1.noMark, noMark_append.2
      ⟨noMark_toList fun t ht => (h2 t ht).noMark, wfOperands_noMark h4⟩⟩

end

theorem ArgsG.noMark {rest ts : List Token} {es : List Expr} (h : ArgsG rest ts es) : NoMark (es.flatMap Expr.toks) := by
  induction h with
  | nil => exact .nil
  | one _ h2 => simpa using h2.noMark
  | cons _ h2 _ _ _ ih => exact noMark_append.2 ⟨h2.noMark, ih⟩

theorem ParamsG.noMark {ts : List Token} {is : List Identifier} (h : ParamsG ts is) :
    NoMark (is.flatMap Identifier.toks) := by
  induction h with
  | nil => exact .nil
  | one _ h2 => simpa using h2.noMark
  | cons _ h2 _ _ ih => exact noMark_append.2 ⟨h2.noMark, ih⟩

theorem FollowAll.noMark {es : List Expr} {rest : List Token} (h : FollowAll es rest) :
    NoMark (es.flatMap Expr.toks) := by
  induction es with
  | nil => exact .nil
  | cons e es ih =>
    simp only [List.flatMap_cons]
    exact noMark_append.2 ⟨h.1.noMark, ih h.2.2⟩

theorem SimpleG.noMark {rest ts : List Token} {node : Node} (h : SimpleG rest ts node) : NoMark node.toks := by
  cases h with
  | declaration h1 h2 => simpa [Node.toks] using noMark_cons.2 ⟨h1.noMark, h2.noMark⟩
  | @declarationType t i itz ty h1 h2 h3 h4 =>
    simp only [Node.toks, Option.toList, List.flatMap_cons, List.flatMap_nil, IHasAInitialValue.toks, List.append_nil]
    exact noMark_cons.2 ⟨h1.noMark, noMark_append.2 ⟨h2.noMark,
      noMark_cons.2 ⟨h4.noMark (by cases ty <;> rfl), .nil⟩⟩⟩
  | declarationExpr h1 h2 h3 h4 =>
    simp only [Node.toks, Option.toList, List.flatMap_cons, List.flatMap_nil, IHasAInitialValue.toks, List.append_nil]
    exact noMark_cons.2 ⟨h1.noMark, noMark_append.2 ⟨h2.noMark, h4.noMark⟩⟩
  | assignment h1 h2 h3 => exact noMark_append.2 ⟨h1.noMark, noMark_cons.2 ⟨h2.noMark, h3.noMark⟩⟩
  | setSlot h1 h2 h3 h4 h5 => exact noMark_append.2 ⟨h1.noMark, noMark_append.2 ⟨h3.noMark, h5.noMark⟩⟩
  | access h => exact h.noMark
  | expression h => exact h.noMark
  | visible h1 h2 h3 =>
    refine noMark_cons.2 ⟨h1.noMark, noMark_append.2 ⟨h2.noMark, noMark_toList fun t ht => ?_⟩⟩
    have h := h3 t ht
    simp [Token.isMarker, h]
  | gimmeh h1 h2 => exact noMark_cons.2 ⟨h1.noMark, h2.noMark⟩
  | foundYr h1 h2 => exact noMark_cons.2 ⟨h1.noMark, h2.noMark⟩
  | call h1 h2 h3 h4 => exact noMark_cons.2 ⟨h1.noMark, noMark_append.2 ⟨h2.noMark, h3.noMark⟩⟩
  | gtfo h => exact noMark_cons.2 ⟨h.noMark, .nil⟩
  | kThxBye h => exact noMark_cons.2 ⟨h.noMark, .nil⟩

theorem IterationG.noMark {ts : List Token} {op : Option LoopIterationOperation} (h : IterationG ts op) :
    NoMark (op.toList.flatMap (·.toks)) := by
  cases h with
  | none => exact .nil
  | @some op yr v h1 h2 h3 =>
    simp only [Option.toList, List.flatMap_cons, List.flatMap_nil, LoopIterationOperation.toks, List.append_nil]
    exact noMark_cons.2 ⟨h1.noMark (by cases op <;> rfl), h3.noMark⟩

theorem ConditionG.noMark {ts : List Token} {c : Option LoopCondition} (h : ConditionG ts c) :
    NoMark (c.toList.flatMap (·.toks)) := by
  cases h with
  | none => exact .nil
  | til _ h2 => simpa [LoopCondition.toks] using h2.noMark
  | wile _ h2 => simpa [LoopCondition.toks] using h2.noMark

/-- No token is `HAI`. -/
def NoHai (ts : List Token) : Prop := ∀ t ∈ ts, ¬ t.Is .HAI

theorem noHai_append {a b : List Token} : NoHai (a ++ b) ↔ NoHai a ∧ NoHai b := by
  simp only [NoHai, List.mem_append]
  exact ⟨fun h => ⟨fun t ht => h t (.inl ht), fun t ht => h t (.inr ht)⟩, fun h t ht => ht.elim (h.1 t) (h.2 t)⟩

theorem noHai_cons {t : Token} {b : List Token} : NoHai (t :: b) ↔ ¬ t.Is .HAI ∧ NoHai b := by
  simp [NoHai]

mutual

theorem NodeG.noMark {L : List (List Token)} {node : Node} : NodeG L node → NoHai node.toks → NoMark node.toks
  | .simple h, _ => h.noMark
  | .hai h, hn => absurd h (hn _ (by simp [Node.toks]))
  | .loop h1 h2 h3 h4 h5 h6 h7, hn => by
    have ih := h5.noMark
    simp only [Node.toks, noHai_cons, noHai_append] at hn ⊢
    exact noMark_cons.2 ⟨h1.noMark, noMark_cons.2 ⟨h2.noMark, noMark_append.2 ⟨h3.noMark, noMark_append.2 ⟨h4.noMark,
      noMark_append.2 ⟨ih hn.2.2.2.2.1, noMark_cons.2 ⟨h7.noMark, .nil⟩⟩⟩⟩⟩⟩
  | .function h1 h2 h3 h4 h5, hn => by
    have ih := h4.noMark
    simp only [Node.toks, noHai_cons, noHai_append] at hn ⊢
    exact noMark_cons.2 ⟨h1.noMark, noMark_append.2 ⟨h2.noMark, noMark_append.2 ⟨h3.noMark, ih hn.2.2.2⟩⟩⟩
  | .switch h1 h2 h3 h4 h5, hn => by
    have ih1 := h3.noMark
    have ih2 := h4.noMark
    simp only [Node.toks, noHai_cons, noHai_append] at hn ⊢
    exact noMark_cons.2 ⟨h1.noMark, noMark_append.2 ⟨ih1 hn.2.1, ih2 hn.2.2⟩⟩
  | .conditional h1 h2 h3 h4 h5 h6, hn => by
    have ih1 := h3.noMark
    have ih2 := h4.noMark
    have ih3 := h5.noMark
    simp only [Node.toks, noHai_cons, noHai_append] at hn ⊢
    exact noMark_cons.2 ⟨h1.noMark, noMark_append.2 ⟨ih1 hn.2.1, noMark_append.2 ⟨ih2 hn.2.2.1, ih3 hn.2.2.2⟩⟩⟩

theorem OmgsG.noMark {L : List (List Token)} {omgs : List WtfOmg} : OmgsG L omgs → NoHai (toksOmgs omgs) →
    NoMark (toksOmgs omgs)
  | .nil, _ => by simp only [toksOmgs]; exact .nil
  | .cons h1 h2 h3 h4, hn => by
    have ih1 := h3.noMark
    have ih2 := h4.noMark
    simp only [toksOmgs, noHai_cons, noHai_append] at hn ⊢
    exact noMark_cons.2 ⟨h1.noMark, noMark_append.2 ⟨h2.noMark, noMark_append.2 ⟨ih1 hn.2.2.1, ih2 hn.2.2.2⟩⟩⟩

theorem OmgWtfG.noMark {L : List (List Token)} {d : Option WtfOmgWtf} : OmgWtfG L d → NoHai (toksOmgWtf d) →
    NoMark (toksOmgWtf d)
  | .none, _ => by simp only [toksOmgWtf]; exact .nil
  | .some h1 h2, hn => by
    have ih := h2.noMark
    simp only [toksOmgWtf, noHai_cons] at hn ⊢
    exact noMark_cons.2 ⟨h1.noMark, ih hn.2⟩

theorem YaRlyG.noMark {L : List (List Token)} {d : Option YaRly} : YaRlyG L d → NoHai (toksYaRly d) →
    NoMark (toksYaRly d)
  | .none, _ => by simp only [toksYaRly]; exact .nil
  | .some h1 h2, hn => by
    have ih := h2.noMark
    simp only [toksYaRly, noHai_cons] at hn ⊢
    exact noMark_cons.2 ⟨h1.noMark, ih hn.2⟩

theorem MebbesG.noMark {L : List (List Token)} {ms : List Mebbe} : MebbesG L ms → NoHai (toksMebbes ms) →
    NoMark (toksMebbes ms)
  | .nil, _ => by simp only [toksMebbes]; exact .nil
  | .cons h1 h2 h3 h4, hn => by
    have ih1 := h3.noMark
    have ih2 := h4.noMark
    simp only [toksMebbes, noHai_cons, noHai_append] at hn ⊢
    exact noMark_cons.2 ⟨h1.noMark, noMark_append.2 ⟨h2.noMark, noMark_append.2 ⟨ih1 hn.2.2.1, ih2 hn.2.2.2⟩⟩⟩

theorem NoWaiG.noMark {L : List (List Token)} {d : Option NoWai} : NoWaiG L d → NoHai (toksNoWai d) →
    NoMark (toksNoWai d)
  | .none, _ => by simp only [toksNoWai]; exact .nil
  | .some h1 h2, hn => by
    have ih := h2.noMark
    simp only [toksNoWai, noHai_cons] at hn ⊢
    exact noMark_cons.2 ⟨h1.noMark, ih hn.2⟩

theorem BlockG.noMark {L : List (List Token)} {nodes : List Node} : BlockG L nodes → NoHai (toksBlock nodes) →
    NoMark (toksBlock nodes)
  | .nodes h1 h2, hn => by
    have ih1 := h1.noMark
    have ih2 := h2.noMark
    simp only [toksBlock, noHai_append] at hn ⊢
    exact noMark_append.2 ⟨ih1 hn.1, ih2 hn.2⟩
  | .skip h, hn => h.noMark hn

theorem NodesG.noMark {L : List (List Token)} {nodes : List Node} : NodesG L nodes → NoHai (toksBlock nodes) →
    NoMark (toksBlock nodes)
  | .nil, _ => by simp only [toksBlock]; exact .nil
  | .cons h1 h2, hn => by
    have ih1 := h1.noMark
    have ih2 := h2.noMark
    simp only [toksBlock, noHai_append] at hn ⊢
    exact noMark_append.2 ⟨ih1 hn.1, ih2 hn.2⟩

end

end Lol
