import Verif.Parser.ConstructLemmas
import Verif.Parser.WordSpec

/-! # The tokens of programs without errors: lemmas -/

namespace Lol

theorem AllWords.nil : AllWords [] := by simp [AllWords]

theorem allWords_append {a b : List Token} : AllWords (a ++ b) ↔ AllWords a ∧ AllWords b := by
  simp only [AllWords, List.mem_append]
  exact ⟨fun h => ⟨fun t ht => h t (.inl ht), fun t ht => h t (.inr ht)⟩, fun h t ht => ht.elim (h.1 t) (h.2 t)⟩

theorem allWords_cons {t : Token} {b : List Token} : AllWords (t :: b) ↔ t.IsWord ∧ AllWords b := by
  simp [AllWords]

theorem Token.Is.allWords {t : Token} {k : Keyword} (h : t.Is k) (hk : k ∉ unusedKeywords := by decide) :
    t.IsWord := by
  have h : t.tokenType = _ := h
  simpa [Token.IsWord, h] using hk

theorem Token.IsIdent.allWords {t : Token} (h : t.IsIdent) : t.IsWord := by
  obtain ⟨n, h⟩ := h
  simp [Token.IsWord, h]

theorem BinaryOpt.used (op : BinaryOpt) : op.keyword ∉ unusedKeywords := by cases op <;> simp [keyword, unusedKeywords]

theorem UnaryOpt.used (op : UnaryOpt) : op.keyword ∉ unusedKeywords := by cases op; simp [keyword, unusedKeywords]

theorem NaryOpt.used (op : NaryOpt) : op.keyword ∉ unusedKeywords := by cases op <;> simp [keyword, unusedKeywords]

theorem ASTType.used (ty : ASTType) : ty.keyword ∉ unusedKeywords := by cases ty <;> simp [keyword, unusedKeywords]

theorem LoopOperation.used (op : LoopOperation) : op.keyword ∉ unusedKeywords := by
  cases op <;> simp [keyword, unusedKeywords]

theorem allWords_toList {o : Option Token} (h : ∀ t ∈ o, t.IsWord) : AllWords o.toList := by
  cases o with
  | none => exact .nil
  | some t => exact allWords_cons.2 ⟨h t rfl, .nil⟩

theorem Identifier.WF.allWords {i : Identifier} (h : i.WF) : AllWords i.toks := by
  unfold Identifier.toks
  exact allWords_append.2 ⟨allWords_toList fun t ht => (h.2 t ht).allWords,
    allWords_cons.2 ⟨h.1.allWords, .nil⟩⟩

theorem VariableAccess.WF.allWords {v : VariableAccess} (h : v.WF) : AllWords v.toks := by
  unfold VariableAccess.toks
  refine allWords_append.2 ⟨h.1.allWords, ?_⟩
  intro t ht
  obtain ⟨s, h1, h2⟩ := List.mem_flatMap.1 ht
  obtain ⟨h3, h4⟩ := h.2 s h1
  rcases List.mem_cons.1 h2 with rfl | h2
  · simp [Token.IsWord, h3]
  · exact h4.allWords t h2

mutual

theorem Expr.WF.allWords : {e : Expr} → e.WF → AllWords e.toks
  | .value (.variableAccess v), h => by
    have h : v.WF := h
    exact h.allWords
  | .value (.literal t), h => by
    refine allWords_cons.2 ⟨?_, .nil⟩
    rcases h with ⟨v, h⟩ | h
    · simp [Token.IsWord, h]
    · exact h.allWords
  | .unary op e, h => by
    simp only [Expr.toks]
    exact allWords_cons.2 ⟨h.1.allWords op.used, h.2.allWords⟩
  | .binary op l an r, h => by
    simp only [Expr.toks]
    obtain ⟨h1, h2, h3, h4, h5⟩ := h
    exact allWords_cons.2 ⟨h1.allWords op.used, allWords_append.2 ⟨h2.allWords, allWords_append.2
      ⟨allWords_toList fun t ht => (h4 t ht).allWords, h5.allWords⟩⟩⟩
  | .nary op es mkay, h => by
    simp only [Expr.toks]
    obtain ⟨h1, h2, h3⟩ := h
    exact allWords_cons.2 ⟨h1.allWords op.used, allWords_append.2 ⟨wfOperands_allWords h2,
      allWords_toList fun t ht => (h3 t ht).allWords⟩⟩

theorem wfOperands_allWords : {es : List Operand} → {closed : Bool} → wfOperands es closed →
    AllWords (toksOperands es)
  | [], _, _ => by simp only [toksOperands]; exact .nil
  | .mk e an :: es, closed, h => by
    simp only [toksOperands]
    obtain ⟨h1, h2, h3, h4⟩ := h
    exact allWords_append.2 ⟨h1.allWords, allWords_append.2
      ⟨allWords_toList fun t ht => (h2 t ht).allWords, wfOperands_allWords h4⟩⟩

end

theorem ArgsG.allWords {rest ts : List Token} {es : List Expr} (h : ArgsG rest ts es) : AllWords ts := by
  induction h with
  | nil => exact .nil
  | one h1 h2 => exact allWords_cons.2 ⟨h1.allWords, h2.allWords⟩
  | cons h1 h2 _ h3 _ ih =>
    exact allWords_cons.2 ⟨h1.allWords, allWords_append.2 ⟨h2.allWords, allWords_cons.2 ⟨h3.allWords, ih⟩⟩⟩

theorem ParamsG.allWords {ts : List Token} {is : List Identifier} (h : ParamsG ts is) : AllWords ts := by
  induction h with
  | nil => exact .nil
  | one h1 h2 => exact allWords_cons.2 ⟨h1.allWords, h2.allWords⟩
  | cons h1 h2 h3 _ ih =>
    exact allWords_cons.2 ⟨h1.allWords, allWords_append.2 ⟨h2.allWords, allWords_cons.2 ⟨h3.allWords, ih⟩⟩⟩

theorem FollowAll.allWords {es : List Expr} {rest : List Token} (h : FollowAll es rest) :
    AllWords (es.flatMap Expr.toks) := by
  induction es with
  | nil => exact .nil
  | cons e es ih =>
    simp only [List.flatMap_cons]
    exact allWords_append.2 ⟨h.1.allWords, ih h.2.2⟩

theorem SimpleG.allWords {rest ts : List Token} {node : Node} (h : SimpleG rest ts node) : AllWords ts := by
  cases h with
  | declaration h1 h2 => exact allWords_cons.2 ⟨h1.allWords, h2.allWords⟩
  | declarationType h1 h2 h3 h4 =>
    exact allWords_cons.2 ⟨h1.allWords, allWords_append.2 ⟨h2.allWords, allWords_cons.2 ⟨h3.allWords,
      allWords_cons.2 ⟨h4.allWords (ASTType.used _), .nil⟩⟩⟩⟩
  | declarationExpr h1 h2 h3 h4 =>
    exact allWords_cons.2 ⟨h1.allWords, allWords_append.2 ⟨h2.allWords, allWords_cons.2 ⟨h3.allWords,
      h4.allWords⟩⟩⟩
  | assignment h1 h2 h3 => exact allWords_append.2 ⟨h1.allWords, allWords_cons.2 ⟨h2.allWords, h3.allWords⟩⟩
  | setSlot h1 h2 h3 h4 h5 =>
    exact allWords_append.2 ⟨h1.allWords, allWords_cons.2 ⟨h2.allWords, allWords_append.2 ⟨h3.allWords,
      allWords_cons.2 ⟨h4.allWords, h5.allWords⟩⟩⟩⟩
  | access h => exact h.allWords
  | expression h => exact h.allWords
  | visible h1 h2 h3 =>
    refine allWords_cons.2 ⟨h1.allWords, allWords_append.2 ⟨h2.allWords, allWords_toList fun t ht => ?_⟩⟩
    have h := h3 t ht
    simp [Token.IsWord, h]
  | gimmeh h1 h2 => exact allWords_cons.2 ⟨h1.allWords, h2.allWords⟩
  | foundYr h1 h2 => exact allWords_cons.2 ⟨h1.allWords, h2.allWords⟩
  | call h1 h2 h3 h4 =>
    exact allWords_cons.2 ⟨h1.allWords, allWords_append.2 ⟨h2.allWords, allWords_append.2 ⟨h3.allWords,
      allWords_cons.2 ⟨h4.allWords, .nil⟩⟩⟩⟩
  | gtfo h => exact allWords_cons.2 ⟨h.allWords, .nil⟩
  | kThxBye h => exact allWords_cons.2 ⟨h.allWords, .nil⟩

theorem IterationG.allWords {ts : List Token} {op : Option LoopIterationOperation} (h : IterationG ts op) :
    AllWords ts := by
  cases h with
  | none => exact .nil
  | some h1 h2 h3 => exact allWords_cons.2 ⟨h1.allWords (LoopOperation.used _), allWords_cons.2 ⟨h2.allWords, h3.allWords⟩⟩

theorem ConditionG.allWords {ts : List Token} {c : Option LoopCondition} (h : ConditionG ts c) : AllWords ts := by
  cases h with
  | none => exact .nil
  | til h1 h2 => exact allWords_cons.2 ⟨h1.allWords, h2.allWords⟩
  | wile h1 h2 => exact allWords_cons.2 ⟨h1.allWords, h2.allWords⟩

/-- Every statement consists of words, or starts with `HAI`, or is `O RLY?` or `WTF?`. -/
def Worded (L : List (List Token)) : Prop := ∀ st ∈ L, AllWords st ∨ StartsHai st ∨ AsksOnly st

theorem Worded.nil : Worded [] := by simp [Worded]

theorem worded_append {a b : List (List Token)} : Worded (a ++ b) ↔
    Worded a ∧ Worded b := by
  simp only [Worded, List.mem_append]
  exact ⟨fun h => ⟨fun t ht => h t (.inl ht), fun t ht => h t (.inr ht)⟩, fun h t ht => ht.elim (h.1 t) (h.2 t)⟩

theorem worded_cons {st : List Token} {b : List (List Token)} (h1 : AllWords st) (h2 : Worded b) :
    Worded (st :: b) := by
  intro x hx
  rcases List.mem_cons.1 hx with rfl | hx
  · exact .inl h1
  · exact h2 x hx

theorem worded_asks {st : List Token} {b : List (List Token)} (h1 : AsksOnly st) (h2 : Worded b) :
    Worded (st :: b) := by
  intro x hx
  rcases List.mem_cons.1 hx with rfl | hx
  · exact .inr (.inr h1)
  · exact h2 x hx

theorem worded_end {c : Token} {k : Keyword} (h : c.Is k) (hk : k ∉ unusedKeywords := by decide) :
    Worded [[c], []] :=
  worded_cons (allWords_cons.2 ⟨h.allWords hk, .nil⟩) (worded_cons .nil .nil)

mutual

theorem NodeG.words {L : List (List Token)} {node : Node} : NodeG L node → Worded L
  | .simple h => worded_cons h.allWords .nil
  | .hai h => by
    intro x hx
    rcases List.mem_cons.1 hx with rfl | hx
    · exact .inr (.inl ⟨_, _, rfl, h⟩)
    · rw [List.mem_singleton.1 hx]
      exact .inl .nil
  | .loop h1 h2 h3 h4 h5 h6 h7 => worded_cons (allWords_cons.2 ⟨h1.allWords, allWords_cons.2
      ⟨h2.allWords, allWords_append.2 ⟨h3.allWords, h4.allWords⟩⟩⟩) (worded_append.2 ⟨h5.words,
      worded_cons (allWords_cons.2 ⟨h6.allWords, allWords_cons.2 ⟨h7.allWords, .nil⟩⟩) .nil⟩)
  | .function h1 h2 h3 h4 h5 => worded_cons (allWords_cons.2 ⟨h1.allWords, allWords_append.2
      ⟨h2.allWords, h3.allWords⟩⟩) (worded_append.2 ⟨h4.words, worded_end h5⟩)
  | .switch h1 h2 h3 h4 h5 => worded_asks ⟨_, _, rfl, .inr h1, h2⟩ (worded_append.2 ⟨h3.words, worded_append.2 ⟨h4.words,
      worded_end h5⟩⟩)
  | .conditional h1 h2 h3 h4 h5 h6 => worded_asks ⟨_, _, rfl, .inl h1, h2⟩ (worded_append.2 ⟨h3.words, worded_append.2 ⟨h4.words,
      worded_append.2 ⟨h5.words, worded_cons (allWords_cons.2 ⟨h6.allWords, .nil⟩) .nil⟩⟩⟩)

theorem OmgsG.words {L : List (List Token)} {o : List WtfOmg} : OmgsG L o → Worded L
  | .nil => .nil
  | .cons h1 h2 h3 h4 => worded_cons (allWords_cons.2 ⟨h1.allWords, h2.allWords⟩)
      (worded_append.2 ⟨h3.words, h4.words⟩)

theorem OmgWtfG.words {L : List (List Token)} {o : Option WtfOmgWtf} : OmgWtfG L o → Worded L
  | .none => .nil
  | .some h1 h2 => worded_cons (allWords_cons.2 ⟨h1.allWords, .nil⟩) h2.words

theorem YaRlyG.words {L : List (List Token)} {o : Option YaRly} : YaRlyG L o → Worded L
  | .none => .nil
  | .some h1 h2 => worded_cons (allWords_cons.2 ⟨h1.allWords, .nil⟩) h2.words

theorem MebbesG.words {L : List (List Token)} {o : List Mebbe} : MebbesG L o → Worded L
  | .nil => .nil
  | .cons h1 h2 h3 h4 => worded_cons (allWords_cons.2 ⟨h1.allWords, h2.allWords⟩)
      (worded_append.2 ⟨h3.words, h4.words⟩)

theorem NoWaiG.words {L : List (List Token)} {o : Option NoWai} : NoWaiG L o → Worded L
  | .none => .nil
  | .some h1 h2 => worded_cons (allWords_cons.2 ⟨h1.allWords, .nil⟩) h2.words

theorem BlockG.words {L : List (List Token)} {nodes : List Node} : BlockG L nodes → Worded L
  | .nodes h1 h2 => worded_append.2 ⟨h1.words, h2.words⟩
  | .skip h => worded_cons .nil h.words

theorem NodesG.words {L : List (List Token)} {nodes : List Node} : NodesG L nodes → Worded L
  | .nil => .nil
  | .cons h1 h2 => worded_append.2 ⟨h1.words, h2.words⟩

end

end Lol
