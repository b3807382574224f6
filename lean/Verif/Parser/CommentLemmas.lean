import Verif.Parser.ConstructLemmas

/-! # Comments in programs without errors: lemmas -/

namespace Lol

theorem NoComment.nil : NoComment [] := by simp [NoComment]

theorem noComment_append {a b : List Token} : NoComment (a ++ b) ↔ NoComment a ∧ NoComment b := by
  simp only [NoComment, List.mem_append]
  exact ⟨fun h => ⟨fun t ht => h t (.inl ht), fun t ht => h t (.inr ht)⟩, fun h t ht => ht.elim (h.1 t) (h.2 t)⟩

theorem noComment_cons {t : Token} {b : List Token} : NoComment (t :: b) ↔ ¬ t.IsComment ∧ NoComment b := by
  simp [NoComment]

theorem Token.Is.noComment {t : Token} {k : Keyword} (h : t.Is k) : ¬ t.IsComment := by
  have h : t.tokenType = _ := h
  rintro (⟨s, h'⟩ | ⟨s, h'⟩) <;> (rw [h] at h'; cases h')

theorem Token.IsIdent.noComment {t : Token} (h : t.IsIdent) : ¬ t.IsComment := by
  obtain ⟨n, h⟩ := h
  rintro (⟨s, h'⟩ | ⟨s, h'⟩) <;> (rw [h] at h'; cases h')

theorem Token.IsQuestion.noComment {t : Token} (h : t.IsQuestion) : ¬ t.IsComment := by
  have h : t.tokenType = _ := h
  rintro (⟨s, h'⟩ | ⟨s, h'⟩) <;> (rw [h] at h'; cases h')

theorem noComment_toList {o : Option Token} (h : ∀ t ∈ o, ¬ t.IsComment) : NoComment o.toList := by
  cases o with
  | none => exact .nil
  | some t => exact noComment_cons.2 ⟨h t rfl, .nil⟩

theorem Identifier.WF.noComment {i : Identifier} (h : i.WF) : NoComment i.toks := by
  unfold Identifier.toks
  exact noComment_append.2 ⟨noComment_toList fun t ht => (h.2 t ht).noComment,
    noComment_cons.2 ⟨h.1.noComment, .nil⟩⟩

theorem VariableAccess.WF.noComment {v : VariableAccess} (h : v.WF) : NoComment v.toks := by
  unfold VariableAccess.toks
  refine noComment_append.2 ⟨h.1.noComment, ?_⟩
  intro t ht
  obtain ⟨s, h1, h2⟩ := List.mem_flatMap.1 ht
  obtain ⟨h3, h4⟩ := h.2 s h1
  rcases List.mem_cons.1 h2 with rfl | h2
  · rintro (⟨s, h'⟩ | ⟨s, h'⟩) <;> (rw [h3] at h'; cases h')
  · exact h4.noComment t h2

mutual

theorem Expr.WF.noComment : {e : Expr} → e.WF → NoComment e.toks
  | .value (.variableAccess v), h => by
    have h : v.WF := h
    exact h.noComment
  | .value (.literal t), h => by
    refine noComment_cons.2 ⟨?_, .nil⟩
    rcases h with ⟨v, h⟩ | h
    · rintro (⟨s, h'⟩ | ⟨s, h'⟩) <;> (rw [h] at h'; cases h')
    · exact h.noComment
  | .unary op e, h => by
    simp only [Expr.toks]
    exact noComment_cons.2 ⟨h.1.noComment, h.2.noComment⟩
  | .binary op l an r, h => by
    simp only [Expr.toks]
    obtain ⟨h1, h2, h3, h4, h5⟩ := h
    exact noComment_cons.2 ⟨h1.noComment, noComment_append.2 ⟨h2.noComment, noComment_append.2
      ⟨noComment_toList fun t ht => (h4 t ht).noComment, h5.noComment⟩⟩⟩
  | .nary op es mkay, h => by
    simp only [Expr.toks]
    obtain ⟨h1, h2, h3⟩ := h
    exact noComment_cons.2 ⟨h1.noComment, noComment_append.2 ⟨wfOperands_noComment h2,
      noComment_toList fun t ht => (h3 t ht).noComment⟩⟩

theorem wfOperands_noComment : {es : List Operand} → {closed : Bool} → wfOperands es closed →
    NoComment (toksOperands es)
  | [], _, _ => by simp only [toksOperands]; exact .nil
  | .mk e an :: es, closed, h => by
    simp only [toksOperands]
    obtain ⟨h1, h2, h3, h4⟩ := h
    exact noComment_append.2 ⟨h1.noComment, noComment_append.2
      ⟨noComment_toList fun t ht => (h2 t ht).noComment, wfOperands_noComment h4⟩⟩

end

theorem ArgsG.noComment {rest ts : List Token} {es : List Expr} (h : ArgsG rest ts es) : NoComment ts := by
  induction h with
  | nil => exact .nil
  | one h1 h2 => exact noComment_cons.2 ⟨h1.noComment, h2.noComment⟩
  | cons h1 h2 _ h3 _ ih =>
    exact noComment_cons.2 ⟨h1.noComment, noComment_append.2 ⟨h2.noComment, noComment_cons.2 ⟨h3.noComment, ih⟩⟩⟩

theorem ParamsG.noComment {ts : List Token} {is : List Identifier} (h : ParamsG ts is) : NoComment ts := by
  induction h with
  | nil => exact .nil
  | one h1 h2 => exact noComment_cons.2 ⟨h1.noComment, h2.noComment⟩
  | cons h1 h2 h3 _ ih =>
    exact noComment_cons.2 ⟨h1.noComment, noComment_append.2 ⟨h2.noComment, noComment_cons.2 ⟨h3.noComment, ih⟩⟩⟩

theorem FollowAll.noComment {es : List Expr} {rest : List Token} (h : FollowAll es rest) :
    NoComment (es.flatMap Expr.toks) := by
  induction es with
  | nil => exact .nil
  | cons e es ih =>
    simp only [List.flatMap_cons]
    exact noComment_append.2 ⟨h.1.noComment, ih h.2.2⟩

theorem SimpleG.noComment {rest ts : List Token} {node : Node} (h : SimpleG rest ts node) : NoComment ts := by
  cases h with
  | declaration h1 h2 => exact noComment_cons.2 ⟨h1.noComment, h2.noComment⟩
  | declarationType h1 h2 h3 h4 =>
    exact noComment_cons.2 ⟨h1.noComment, noComment_append.2 ⟨h2.noComment, noComment_cons.2 ⟨h3.noComment,
      noComment_cons.2 ⟨h4.noComment, .nil⟩⟩⟩⟩
  | declarationExpr h1 h2 h3 h4 =>
    exact noComment_cons.2 ⟨h1.noComment, noComment_append.2 ⟨h2.noComment, noComment_cons.2 ⟨h3.noComment,
      h4.noComment⟩⟩⟩
  | assignment h1 h2 h3 => exact noComment_append.2 ⟨h1.noComment, noComment_cons.2 ⟨h2.noComment, h3.noComment⟩⟩
  | setSlot h1 h2 h3 h4 h5 =>
    exact noComment_append.2 ⟨h1.noComment, noComment_cons.2 ⟨h2.noComment, noComment_append.2 ⟨h3.noComment,
      noComment_cons.2 ⟨h4.noComment, h5.noComment⟩⟩⟩⟩
  | access h => exact h.noComment
  | expression h => exact h.noComment
  | visible h1 h2 h3 =>
    refine noComment_cons.2 ⟨h1.noComment, noComment_append.2 ⟨h2.noComment, noComment_toList fun t ht => ?_⟩⟩
    have h := h3 t ht
    rintro (⟨s, h'⟩ | ⟨s, h'⟩) <;> (rw [h] at h'; cases h')
  | gimmeh h1 h2 => exact noComment_cons.2 ⟨h1.noComment, h2.noComment⟩
  | foundYr h1 h2 => exact noComment_cons.2 ⟨h1.noComment, h2.noComment⟩
  | call h1 h2 h3 h4 =>
    exact noComment_cons.2 ⟨h1.noComment, noComment_append.2 ⟨h2.noComment, noComment_append.2 ⟨h3.noComment,
      noComment_cons.2 ⟨h4.noComment, .nil⟩⟩⟩⟩
  | gtfo h => exact noComment_cons.2 ⟨h.noComment, .nil⟩
  | kThxBye h => exact noComment_cons.2 ⟨h.noComment, .nil⟩

theorem IterationG.noComment {ts : List Token} {op : Option LoopIterationOperation} (h : IterationG ts op) :
    NoComment ts := by
  cases h with
  | none => exact .nil
  | some h1 h2 h3 => exact noComment_cons.2 ⟨h1.noComment, noComment_cons.2 ⟨h2.noComment, h3.noComment⟩⟩

theorem ConditionG.noComment {ts : List Token} {c : Option LoopCondition} (h : ConditionG ts c) : NoComment ts := by
  cases h with
  | none => exact .nil
  | til h1 h2 => exact noComment_cons.2 ⟨h1.noComment, h2.noComment⟩
  | wile h1 h2 => exact noComment_cons.2 ⟨h1.noComment, h2.noComment⟩

/-- Every statement has no comment, or starts with `HAI`. -/
def CommentsInHai (L : List (List Token)) : Prop := ∀ st ∈ L, NoComment st ∨ StartsHai st

theorem CommentsInHai.nil : CommentsInHai [] := by simp [CommentsInHai]

theorem commentsInHai_append {a b : List (List Token)} : CommentsInHai (a ++ b) ↔
    CommentsInHai a ∧ CommentsInHai b := by
  simp only [CommentsInHai, List.mem_append]
  exact ⟨fun h => ⟨fun t ht => h t (.inl ht), fun t ht => h t (.inr ht)⟩, fun h t ht => ht.elim (h.1 t) (h.2 t)⟩

theorem commentsInHai_cons {st : List Token} {b : List (List Token)} (h1 : NoComment st) (h2 : CommentsInHai b) :
    CommentsInHai (st :: b) := by
  intro x hx
  rcases List.mem_cons.1 hx with rfl | hx
  · exact .inl h1
  · exact h2 x hx

theorem commentsInHai_end {c : Token} {k : Keyword} (h : c.Is k) : CommentsInHai [[c], []] :=
  commentsInHai_cons (noComment_cons.2 ⟨h.noComment, .nil⟩) (commentsInHai_cons .nil .nil)

mutual

theorem NodeG.comments {L : List (List Token)} {node : Node} : NodeG L node → CommentsInHai L
  | .simple h => commentsInHai_cons h.noComment .nil
  | .hai h => by
    intro x hx
    rcases List.mem_cons.1 hx with rfl | hx
    · exact .inr ⟨_, _, rfl, h⟩
    · rw [List.mem_singleton.1 hx]
      exact .inl .nil
  | .loop h1 h2 h3 h4 h5 h6 h7 => commentsInHai_cons (noComment_cons.2 ⟨h1.noComment, noComment_cons.2
      ⟨h2.noComment, noComment_append.2 ⟨h3.noComment, h4.noComment⟩⟩⟩) (commentsInHai_append.2 ⟨h5.comments,
      commentsInHai_cons (noComment_cons.2 ⟨h6.noComment, noComment_cons.2 ⟨h7.noComment, .nil⟩⟩) .nil⟩)
  | .function h1 h2 h3 h4 h5 => commentsInHai_cons (noComment_cons.2 ⟨h1.noComment, noComment_append.2
      ⟨h2.noComment, h3.noComment⟩⟩) (commentsInHai_append.2 ⟨h4.comments, commentsInHai_end h5⟩)
  | .switch h1 h2 h3 h4 h5 => commentsInHai_cons (noComment_cons.2 ⟨h1.noComment, noComment_cons.2
      ⟨h2.noComment, .nil⟩⟩) (commentsInHai_append.2 ⟨h3.comments, commentsInHai_append.2 ⟨h4.comments,
      commentsInHai_end h5⟩⟩)
  | .conditional h1 h2 h3 h4 h5 h6 => commentsInHai_cons (noComment_cons.2 ⟨h1.noComment, noComment_cons.2
      ⟨h2.noComment, .nil⟩⟩) (commentsInHai_append.2 ⟨h3.comments, commentsInHai_append.2 ⟨h4.comments,
      commentsInHai_append.2 ⟨h5.comments, commentsInHai_cons (noComment_cons.2 ⟨h6.noComment, .nil⟩) .nil⟩⟩⟩)

theorem OmgsG.comments {L : List (List Token)} {o : List WtfOmg} : OmgsG L o → CommentsInHai L
  | .nil => .nil
  | .cons h1 h2 h3 h4 => commentsInHai_cons (noComment_cons.2 ⟨h1.noComment, h2.noComment⟩)
      (commentsInHai_append.2 ⟨h3.comments, h4.comments⟩)

theorem OmgWtfG.comments {L : List (List Token)} {o : Option WtfOmgWtf} : OmgWtfG L o → CommentsInHai L
  | .none => .nil
  | .some h1 h2 => commentsInHai_cons (noComment_cons.2 ⟨h1.noComment, .nil⟩) h2.comments

theorem YaRlyG.comments {L : List (List Token)} {o : Option YaRly} : YaRlyG L o → CommentsInHai L
  | .none => .nil
  | .some h1 h2 => commentsInHai_cons (noComment_cons.2 ⟨h1.noComment, .nil⟩) h2.comments

theorem MebbesG.comments {L : List (List Token)} {o : List Mebbe} : MebbesG L o → CommentsInHai L
  | .nil => .nil
  | .cons h1 h2 h3 h4 => commentsInHai_cons (noComment_cons.2 ⟨h1.noComment, h2.noComment⟩)
      (commentsInHai_append.2 ⟨h3.comments, h4.comments⟩)

theorem NoWaiG.comments {L : List (List Token)} {o : Option NoWai} : NoWaiG L o → CommentsInHai L
  | .none => .nil
  | .some h1 h2 => commentsInHai_cons (noComment_cons.2 ⟨h1.noComment, .nil⟩) h2.comments

theorem BlockG.comments {L : List (List Token)} {nodes : List Node} : BlockG L nodes → CommentsInHai L
  | .nodes h1 h2 => commentsInHai_append.2 ⟨h1.comments, h2.comments⟩
  | .skip h => commentsInHai_cons .nil h.comments

theorem NodesG.comments {L : List (List Token)} {nodes : List Node} : NodesG L nodes → CommentsInHai L
  | .nil => .nil
  | .cons h1 h2 => commentsInHai_append.2 ⟨h1.comments, h2.comments⟩

end

theorem comment_fail {c : Token} (hc : c.IsComment) (r : List Token) :
    SimpleFail r [c] (.error (.unexpectedToken c)) := by
  refine .expression (fun k _ h => h.noComment hc) (fun h => h.noComment hc) (fun h => h.noComment hc) (.start ?_)
  rintro (h | ⟨v, h⟩ | ⟨k', -, h'⟩)
  · exact h.noComment hc
  · rcases hc with ⟨s, h'⟩ | ⟨s, h'⟩ <;> (rw [h] at h'; cases h')
  · exact h'.noComment hc

end Lol
