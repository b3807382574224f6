import Verif.Parser.CoverSpec
import Verif.Parser.TreeSpec

/-! # Helper lemmas: the list of the errors in a tree -/

namespace Lol

mutual

theorem Node.errors_sublist : (n : Node) → (n.errors.flatMap ASTError.toks).Sublist n.toks
  | .astError e => by simp [Node.toks, Node.errors]
  | .imInYr _ _ _ _ body _ => by
      have h1 := errorsBlock_sublist body
      simp only [Node.toks, Node.errors]
      refine .cons _ (.cons _ ?_)
      refine List.sublist_append_of_sublist_right (List.sublist_append_of_sublist_right ?_)
      exact List.sublist_append_of_sublist_left h1
  | .wtf _ omgs omgWtf => by
      have h1 := errorsOmgs_sublist omgs
      have h2 := errorsOmgWtf_sublist omgWtf
      simp only [Node.toks, Node.errors, List.flatMap_append]
      exact .cons _ (h1.append h2)
  | .oRly _ yaRly noWai mebbes => by
      have h1 := errorsYaRly_sublist yaRly
      have h2 := errorsMebbes_sublist mebbes
      have h3 := errorsNoWai_sublist noWai
      simp only [Node.toks, Node.errors, List.flatMap_append]
      exact .cons _ (h1.append (h2.append h3))
  | .howIzI _ _ _ body => by
      have h1 := errorsBlock_sublist body
      simp only [Node.toks, Node.errors]
      exact .cons _ (List.sublist_append_of_sublist_right (List.sublist_append_of_sublist_right h1))
  | .iHasA _ | .hai _ | .bukkitSetSlot _ | .variableAssignment _ | .visible _ | .foundYr _ | .iIz _ | .gtfo _
  | .gimmeh _ | .expression _ | .kThxBye _ => by simp [Node.errors]

theorem errorsOmgs_sublist : (l : List WtfOmg) → ((errorsOmgs l).flatMap ASTError.toks).Sublist (toksOmgs l)
  | [] => by simp [errorsOmgs]
  | .mk _ _ b :: rest => by
      have h1 := errorsBlock_sublist b
      have h2 := errorsOmgs_sublist rest
      simp only [toksOmgs, errorsOmgs, List.flatMap_append]
      exact .cons _ (List.sublist_append_of_sublist_right (h1.append h2))

theorem errorsOmgWtf_sublist : (o : Option WtfOmgWtf) →
    ((errorsOmgWtf o).flatMap ASTError.toks).Sublist (toksOmgWtf o)
  | none => by simp [errorsOmgWtf]
  | some (.mk _ b) => by
      have h1 := errorsBlock_sublist b
      simp only [toksOmgWtf, errorsOmgWtf]
      exact .cons _ h1

theorem errorsYaRly_sublist : (o : Option YaRly) → ((errorsYaRly o).flatMap ASTError.toks).Sublist (toksYaRly o)
  | none => by simp [errorsYaRly]
  | some (.mk _ b) => by
      have h1 := errorsBlock_sublist b
      simp only [toksYaRly, errorsYaRly]
      exact .cons _ h1

theorem errorsMebbes_sublist : (l : List Mebbe) → ((errorsMebbes l).flatMap ASTError.toks).Sublist (toksMebbes l)
  | [] => by simp [errorsMebbes]
  | .mk _ _ b :: rest => by
      have h1 := errorsBlock_sublist b
      have h2 := errorsMebbes_sublist rest
      simp only [toksMebbes, errorsMebbes, List.flatMap_append]
      exact .cons _ (List.sublist_append_of_sublist_right (h1.append h2))

theorem errorsNoWai_sublist : (o : Option NoWai) → ((errorsNoWai o).flatMap ASTError.toks).Sublist (toksNoWai o)
  | none => by simp [errorsNoWai]
  | some (.mk _ b) => by
      have h1 := errorsBlock_sublist b
      simp only [toksNoWai, errorsNoWai]
      exact .cons _ h1

/-- The tokens of the errors are among those of the tree, in the same order. -/
theorem errorsBlock_sublist : (b : List Node) → ((errorsBlock b).flatMap ASTError.toks).Sublist (toksBlock b)
  | [] => by simp [errorsBlock]
  | n :: rest => by
      have h1 := Node.errors_sublist n
      have h2 := errorsBlock_sublist rest
      simp only [toksBlock, errorsBlock, List.flatMap_append]
      exact h1.append h2

end

/-- The error stands in the block or somewhere inside it. -/
def ErrorIn (e : ASTError) (root : Block) : Prop := ∃ b, BlockIn b root ∧ .astError e ∈ b

theorem ErrorIn.of_block {e : ASTError} {root inner : Block} {node : Node} (h : ErrorIn e inner) (h1 : node ∈ root)
    (h2 : inner ∈ node.blocks) : ErrorIn e root :=
  let ⟨b, h3, h4⟩ := h
  ⟨b, .inside h1 h2 h3, h4⟩

theorem ErrorIn.cons {e : ASTError} {b : Block} (n : Node) (h : ErrorIn e b) : ErrorIn e (n :: b) := by
  obtain ⟨c, h1, h2⟩ := h
  cases h1 with
  | self => exact ⟨_, .self, .tail _ h2⟩
  | inside h3 h4 h5 => exact ⟨_, .inside (.tail _ h3) h4 h5, h2⟩

mutual

theorem Node.errors_in (e : ASTError) : (n : Node) → e ∈ n.errors → n = .astError e ∨ ∃ b ∈ n.blocks, ErrorIn e b
  | .astError e', h => .inl (by rw [List.mem_singleton.1 h])
  | .imInYr _ _ _ _ body _, h => .inr ⟨body, .head _, errorsBlock_in e body h⟩
  | .howIzI _ _ _ body, h => .inr ⟨body, .head _, errorsBlock_in e body h⟩
  | .wtf _ omgs omgWtf, h => by
      have h1 := errorsOmgs_in e omgs
      have h2 := errorsOmgWtf_in e omgWtf
      rcases List.mem_append.1 h with h | h
      · obtain ⟨b, h3, h4⟩ := h1 h
        exact .inr ⟨b, List.mem_append_left _ h3, h4⟩
      · obtain ⟨b, h3, h4⟩ := h2 h
        exact .inr ⟨b, List.mem_append_right _ h3, h4⟩
  | .oRly _ yaRly noWai mebbes, h => by
      have h1 := errorsYaRly_in e yaRly
      have h2 := errorsMebbes_in e mebbes
      have h3 := errorsNoWai_in e noWai
      rcases List.mem_append.1 h with h | h
      · obtain ⟨b, h4, h5⟩ := h1 h
        exact .inr ⟨b, List.mem_append_left _ h4, h5⟩
      · rcases List.mem_append.1 h with h | h
        · obtain ⟨b, h4, h5⟩ := h2 h
          exact .inr ⟨b, List.mem_append_right _ (List.mem_append_left _ h4), h5⟩
        · obtain ⟨b, h4, h5⟩ := h3 h
          exact .inr ⟨b, List.mem_append_right _ (List.mem_append_right _ h4), h5⟩
  | .iHasA _, h | .hai _, h | .bukkitSetSlot _, h | .variableAssignment _, h | .visible _, h | .foundYr _, h
  | .iIz _, h | .gtfo _, h | .gimmeh _, h | .expression _, h | .kThxBye _, h => nomatch h

theorem errorsOmgs_in (e : ASTError) : (l : List WtfOmg) → e ∈ errorsOmgs l →
    ∃ b ∈ l.map (fun | .mk _ _ b => b), ErrorIn e b
  | [], h => nomatch h
  | .mk _ _ b :: rest, h => by
      have h1 := errorsBlock_in e b
      have h2 := errorsOmgs_in e rest
      rcases List.mem_append.1 h with h | h
      · exact ⟨b, .head _, h1 h⟩
      · obtain ⟨c, h3, h4⟩ := h2 h
        exact ⟨c, .tail _ h3, h4⟩

theorem errorsOmgWtf_in (e : ASTError) : (o : Option WtfOmgWtf) → e ∈ errorsOmgWtf o →
    ∃ b ∈ o.toList.map (fun | .mk _ b => b), ErrorIn e b
  | none, h => nomatch h
  | some (.mk _ b), h => ⟨b, .head _, errorsBlock_in e b h⟩

theorem errorsYaRly_in (e : ASTError) : (o : Option YaRly) → e ∈ errorsYaRly o →
    ∃ b ∈ o.toList.map (fun | .mk _ b => b), ErrorIn e b
  | none, h => nomatch h
  | some (.mk _ b), h => ⟨b, .head _, errorsBlock_in e b h⟩

theorem errorsMebbes_in (e : ASTError) : (l : List Mebbe) → e ∈ errorsMebbes l →
    ∃ b ∈ l.map (fun | .mk _ _ b => b), ErrorIn e b
  | [], h => nomatch h
  | .mk _ _ b :: rest, h => by
      have h1 := errorsBlock_in e b
      have h2 := errorsMebbes_in e rest
      rcases List.mem_append.1 h with h | h
      · exact ⟨b, .head _, h1 h⟩
      · obtain ⟨c, h3, h4⟩ := h2 h
        exact ⟨c, .tail _ h3, h4⟩

theorem errorsNoWai_in (e : ASTError) : (o : Option NoWai) → e ∈ errorsNoWai o →
    ∃ b ∈ o.toList.map (fun | .mk _ b => b), ErrorIn e b
  | none, h => nomatch h
  | some (.mk _ b), h => ⟨b, .head _, errorsBlock_in e b h⟩

theorem errorsBlock_in (e : ASTError) : (b : List Node) → e ∈ errorsBlock b → ErrorIn e b
  | [], h => nomatch h
  | n :: rest, h => by
      have h1 := Node.errors_in e n
      have h2 := errorsBlock_in e rest
      rcases List.mem_append.1 h with h | h
      · rcases h1 h with rfl | ⟨b, h3, h4⟩
        · exact ⟨_, .self, .head _⟩
        · exact h4.of_block (.head _) h3
      · exact (h2 h).cons n

end

theorem errors_block {e : ASTError} : {root : List Node} → {n : Node} → n ∈ root → e ∈ n.errors → e ∈ errorsBlock root
  | _ :: _, _, .head _, h => List.mem_append_left _ h
  | _ :: _, _, .tail _ h1, h => List.mem_append_right _ (errors_block h1 h)

theorem errors_omgs {e : ASTError} : {l : List WtfOmg} → {b : Block} → b ∈ l.map (fun | .mk _ _ b => b) →
    e ∈ errorsBlock b → e ∈ errorsOmgs l
  | .mk _ _ _ :: _, _, .head _, h => List.mem_append_left _ h
  | .mk _ _ _ :: _, _, .tail _ h1, h => List.mem_append_right _ (errors_omgs h1 h)

theorem errors_mebbes {e : ASTError} : {l : List Mebbe} → {b : Block} → b ∈ l.map (fun | .mk _ _ b => b) →
    e ∈ errorsBlock b → e ∈ errorsMebbes l
  | .mk _ _ _ :: _, _, .head _, h => List.mem_append_left _ h
  | .mk _ _ _ :: _, _, .tail _ h1, h => List.mem_append_right _ (errors_mebbes h1 h)

theorem errors_inner {e : ASTError} {n : Node} {b : Block} (hb : b ∈ n.blocks) (h : e ∈ errorsBlock b) :
    e ∈ n.errors := by
  cases n with
  | imInYr => cases List.mem_singleton.1 hb; exact h
  | howIzI => cases List.mem_singleton.1 hb; exact h
  | wtf t omgs o =>
    rcases List.mem_append.1 hb with hb | hb
    · exact List.mem_append_left _ (errors_omgs hb h)
    · match o, hb with
      | some (.mk _ _), hb => cases List.mem_singleton.1 hb; exact List.mem_append_right _ h
  | oRly t y no m =>
    rcases List.mem_append.1 hb with hb | hb
    · match y, hb with
      | some (.mk _ _), hb => cases List.mem_singleton.1 hb; exact List.mem_append_left _ h
    · rcases List.mem_append.1 hb with hb | hb
      · exact List.mem_append_right _ (List.mem_append_left _ (errors_mebbes hb h))
      · match no, hb with
        | some (.mk _ _), hb =>
          cases List.mem_singleton.1 hb; exact List.mem_append_right _ (List.mem_append_right _ h)
  | _ => exact nomatch hb

theorem mem_errorsBlock {e : ASTError} {b root : Block} (hb : BlockIn b root) (he : .astError e ∈ b) :
    e ∈ errorsBlock root := by
  induction hb with
  | self => exact errors_block he (.head _)
  | inside h1 h2 _ ih => exact errors_block h1 (errors_inner h2 ih)

/-! ## Statements of sources without an ellipsis are on one line -/

theorem split_line_aux : (ts : List Token) → (∀ t ∈ ts, t.tokenType ≠ .ellipsis) →
    (∀ line, (∀ t ∈ (splitFrom ts line).cur, t.range.start.line = line) ∧
      ∀ st ∈ (splitFrom ts line).later, ∃ l, ∀ t ∈ st, t.range.start.line = l) ∧
    ∀ st ∈ splitGap ts, ∃ l, ∀ t ∈ st, t.range.start.line = l
  | [], _ => by simp [splitFrom, splitGap]
  | t :: rest, h => by
    obtain ⟨ih1, ih2⟩ := split_line_aux rest fun u hu => h u (.tail _ hu)
    have he := h t (.head _)
    have hp : ∀ st ∈ ((splitFrom rest t.range.start.line).push t).all, ∃ l, ∀ u ∈ st, u.range.start.line = l := by
      intro st hst
      rcases List.mem_cons.1 hst with rfl | hst
      · refine ⟨t.range.start.line, fun u hu => ?_⟩
        rcases List.mem_cons.1 hu with rfl | hu
        · rfl
        · exact (ih1 _).1 u hu
      · exact (ih1 _).2 st hst
    refine ⟨fun line => ?_, ?_⟩
    · unfold splitFrom
      by_cases hc : t.tokenType = .comma
      · rw [if_pos hc]
        exact ⟨fun u hu => (nomatch hu), ih2⟩
      · rw [if_neg hc]
        by_cases hl : t.range.start.line = line
        · rw [if_pos hl, if_neg he]
          refine ⟨fun u hu => ?_, (ih1 line).2⟩
          rcases List.mem_cons.1 hu with rfl | hu
          · exact hl
          · exact (ih1 line).1 u hu
        · rw [if_neg hl, if_neg he]
          exact ⟨fun u hu => (nomatch hu), hp⟩
    · unfold splitGap
      by_cases hc : t.tokenType = .comma
      · rw [if_pos hc]
        exact ih2
      · rw [if_neg hc, if_neg he]
        exact hp

end Lol
