import Verif.Parser.TreeSpec
import Verif.Parser.Blocks

/-!
# Lemmas on the nodes inside a tree
-/

namespace Lol

mutual

/-- The nodes inside a well formed node are well formed, and their tokens are among its tokens. -/
theorem Node.nodes_wf : (node : Node) → node.WF → ∀ n ∈ node.nodes, n.WF ∧ n.toks.Sublist node.toks
  | .iHasA _, h => by intro n hn; cases List.mem_singleton.1 hn; exact ⟨h, List.Sublist.refl _⟩
  | .hai _, h => by intro n hn; cases List.mem_singleton.1 hn; exact ⟨h, List.Sublist.refl _⟩
  | .bukkitSetSlot _, h => by intro n hn; cases List.mem_singleton.1 hn; exact ⟨h, List.Sublist.refl _⟩
  | .variableAssignment _, h => by intro n hn; cases List.mem_singleton.1 hn; exact ⟨h, List.Sublist.refl _⟩
  | .visible _, h => by intro n hn; cases List.mem_singleton.1 hn; exact ⟨h, List.Sublist.refl _⟩
  | .foundYr _, h => by intro n hn; cases List.mem_singleton.1 hn; exact ⟨h, List.Sublist.refl _⟩
  | .iIz _, h => by intro n hn; cases List.mem_singleton.1 hn; exact ⟨h, List.Sublist.refl _⟩
  | .gtfo _, h => by intro n hn; cases List.mem_singleton.1 hn; exact ⟨h, List.Sublist.refl _⟩
  | .gimmeh _, h => by intro n hn; cases List.mem_singleton.1 hn; exact ⟨h, List.Sublist.refl _⟩
  | .expression _, h => by intro n hn; cases List.mem_singleton.1 hn; exact ⟨h, List.Sublist.refl _⟩
  | .astError _, h => by intro n hn; cases List.mem_singleton.1 hn; exact ⟨h, List.Sublist.refl _⟩
  | .kThxBye _, h => by intro n hn; cases List.mem_singleton.1 hn; exact ⟨h, List.Sublist.refl _⟩
  | .imInYr t label op cond body endLabel, h => by
    intro n hn
    rcases List.mem_cons.1 hn with rfl | hn
    · exact ⟨h, List.Sublist.refl _⟩
    · obtain ⟨h1, h2⟩ := allNodes_wf body h.2.2.2.2.1 n hn
      refine ⟨h1, h2.trans ?_⟩
      refine .cons _ (.cons _ ?_)
      exact ((List.sublist_append_left _ _).trans (List.sublist_append_right _ _)).trans
        (List.sublist_append_right _ _)
  | .howIzI t name params body, h => by
    intro n hn
    rcases List.mem_cons.1 hn with rfl | hn
    · exact ⟨h, List.Sublist.refl _⟩
    · obtain ⟨h1, h2⟩ := allNodes_wf body h.2.2.2 n hn
      refine ⟨h1, h2.trans (.cons _ ?_)⟩
      exact (List.sublist_append_right _ _).trans (List.sublist_append_right _ _)
  | .wtf t omgs omgWtf, h => by
    intro n hn
    rcases List.mem_cons.1 hn with rfl | hn
    · exact ⟨h, List.Sublist.refl _⟩
    · rcases List.mem_append.1 hn with hn | hn
      · obtain ⟨h1, h2⟩ := nodesOmgs_wf omgs h.2.1 n hn
        exact ⟨h1, (h2.trans (List.sublist_append_left _ _)).cons _⟩
      · obtain ⟨h1, h2⟩ := nodesOmgWtf_wf omgWtf h.2.2 n hn
        exact ⟨h1, (h2.trans (List.sublist_append_right _ _)).cons _⟩
  | .oRly t yaRly noWai mebbes, h => by
    intro n hn
    rcases List.mem_cons.1 hn with rfl | hn
    · exact ⟨h, List.Sublist.refl _⟩
    · rcases List.mem_append.1 hn with hn | hn
      · obtain ⟨h1, h2⟩ := nodesYaRly_wf yaRly h.2.1 n hn
        exact ⟨h1, (h2.trans (List.sublist_append_left _ _)).cons _⟩
      · rcases List.mem_append.1 hn with hn | hn
        · obtain ⟨h1, h2⟩ := nodesMebbes_wf mebbes h.2.2.1 n hn
          exact ⟨h1, ((h2.trans (List.sublist_append_left _ _)).trans (List.sublist_append_right _ _)).cons _⟩
        · obtain ⟨h1, h2⟩ := nodesNoWai_wf noWai h.2.2.2 n hn
          exact ⟨h1, ((h2.trans (List.sublist_append_right _ _)).trans (List.sublist_append_right _ _)).cons _⟩

theorem nodesOmgs_wf : (omgs : List WtfOmg) → wfOmgs omgs → ∀ n ∈ nodesOmgs omgs, n.WF ∧
    n.toks.Sublist (toksOmgs omgs)
  | [], _ => by simp [nodesOmgs]
  | .mk t e b :: rest, h => by
    intro n hn
    rcases List.mem_append.1 hn with hn | hn
    · obtain ⟨h1, h2⟩ := allNodes_wf b h.2.2.1 n hn
      exact ⟨h1, ((h2.trans (List.sublist_append_left _ _)).trans (List.sublist_append_right _ _)).cons _⟩
    · obtain ⟨h1, h2⟩ := nodesOmgs_wf rest h.2.2.2 n hn
      exact ⟨h1, ((h2.trans (List.sublist_append_right _ _)).trans (List.sublist_append_right _ _)).cons _⟩

theorem nodesOmgWtf_wf : (o : Option WtfOmgWtf) → wfOmgWtf o → ∀ n ∈ nodesOmgWtf o, n.WF ∧
    n.toks.Sublist (toksOmgWtf o)
  | none, _ => by simp [nodesOmgWtf]
  | some (.mk t b), h => by
    intro n hn
    obtain ⟨h1, h2⟩ := allNodes_wf b h.2 n hn
    exact ⟨h1, h2.cons _⟩

theorem nodesYaRly_wf : (o : Option YaRly) → wfYaRly o → ∀ n ∈ nodesYaRly o, n.WF ∧ n.toks.Sublist (toksYaRly o)
  | none, _ => by simp [nodesYaRly]
  | some (.mk t b), h => by
    intro n hn
    obtain ⟨h1, h2⟩ := allNodes_wf b h.2 n hn
    exact ⟨h1, h2.cons _⟩

theorem nodesMebbes_wf : (mebbes : List Mebbe) → wfMebbes mebbes → ∀ n ∈ nodesMebbes mebbes, n.WF ∧
    n.toks.Sublist (toksMebbes mebbes)
  | [], _ => by simp [nodesMebbes]
  | .mk t e b :: rest, h => by
    intro n hn
    rcases List.mem_append.1 hn with hn | hn
    · obtain ⟨h1, h2⟩ := allNodes_wf b h.2.2.1 n hn
      exact ⟨h1, ((h2.trans (List.sublist_append_left _ _)).trans (List.sublist_append_right _ _)).cons _⟩
    · obtain ⟨h1, h2⟩ := nodesMebbes_wf rest h.2.2.2 n hn
      exact ⟨h1, ((h2.trans (List.sublist_append_right _ _)).trans (List.sublist_append_right _ _)).cons _⟩

theorem nodesNoWai_wf : (o : Option NoWai) → wfNoWai o → ∀ n ∈ nodesNoWai o, n.WF ∧ n.toks.Sublist (toksNoWai o)
  | none, _ => by simp [nodesNoWai]
  | some (.mk t b), h => by
    intro n hn
    obtain ⟨h1, h2⟩ := allNodes_wf b h.2 n hn
    exact ⟨h1, h2.cons _⟩

theorem allNodes_wf : (nodes : List Node) → wfBlock nodes → ∀ n ∈ allNodes nodes, n.WF ∧
    n.toks.Sublist (toksBlock nodes)
  | [], _ => by simp [allNodes]
  | node :: rest, h => by
    intro n hn
    rcases List.mem_append.1 hn with hn | hn
    · obtain ⟨h1, h2⟩ := Node.nodes_wf node h.1 n hn
      exact ⟨h1, h2.trans (List.sublist_append_left _ _)⟩
    · obtain ⟨h1, h2⟩ := allNodes_wf rest h.2 n hn
      exact ⟨h1, h2.trans (List.sublist_append_right _ _)⟩

end

mutual

theorem Node.errorFree_iff : (node : Node) → (node.ErrorFree ↔ ∀ e, .astError e ∉ node.nodes)
  | .iHasA _ | .hai _ | .bukkitSetSlot _ | .variableAssignment _ | .visible _ | .foundYr _ | .iIz _ | .gtfo _
  | .gimmeh _ | .expression _ | .kThxBye _ => by simp [Node.ErrorFree, Node.nodes]
  | .astError e => by simp [Node.ErrorFree, Node.nodes]
  | .imInYr _ _ _ _ body _ => by simp [Node.ErrorFree, Node.nodes, errorFreeBlock_iff body]
  | .howIzI _ _ _ body => by simp [Node.ErrorFree, Node.nodes, errorFreeBlock_iff body]
  | .wtf _ omgs o => by
    simp [Node.ErrorFree, Node.nodes, errorFreeOmgs_iff omgs, errorFreeOmgWtf_iff o, forall_and]
  | .oRly _ y n m => by
    simp [Node.ErrorFree, Node.nodes, errorFreeYaRly_iff y, errorFreeMebbes_iff m, errorFreeNoWai_iff n, forall_and]

theorem errorFreeOmgs_iff : (omgs : List WtfOmg) → (errorFreeOmgs omgs ↔ ∀ e, .astError e ∉ nodesOmgs omgs)
  | [] => by simp [errorFreeOmgs, nodesOmgs]
  | .mk _ _ b :: rest => by
    simp [errorFreeOmgs, nodesOmgs, errorFreeBlock_iff b, errorFreeOmgs_iff rest, forall_and]

theorem errorFreeOmgWtf_iff : (o : Option WtfOmgWtf) → (errorFreeOmgWtf o ↔ ∀ e, .astError e ∉ nodesOmgWtf o)
  | none => by simp [errorFreeOmgWtf, nodesOmgWtf]
  | some (.mk _ b) => by simp [errorFreeOmgWtf, nodesOmgWtf, errorFreeBlock_iff b]

theorem errorFreeYaRly_iff : (o : Option YaRly) → (errorFreeYaRly o ↔ ∀ e, .astError e ∉ nodesYaRly o)
  | none => by simp [errorFreeYaRly, nodesYaRly]
  | some (.mk _ b) => by simp [errorFreeYaRly, nodesYaRly, errorFreeBlock_iff b]

theorem errorFreeMebbes_iff : (mebbes : List Mebbe) → (errorFreeMebbes mebbes ↔ ∀ e, .astError e ∉ nodesMebbes mebbes)
  | [] => by simp [errorFreeMebbes, nodesMebbes]
  | .mk _ _ b :: rest => by
    simp [errorFreeMebbes, nodesMebbes, errorFreeBlock_iff b, errorFreeMebbes_iff rest, forall_and]

theorem errorFreeNoWai_iff : (o : Option NoWai) → (errorFreeNoWai o ↔ ∀ e, .astError e ∉ nodesNoWai o)
  | none => by simp [errorFreeNoWai, nodesNoWai]
  | some (.mk _ b) => by simp [errorFreeNoWai, nodesNoWai, errorFreeBlock_iff b]

theorem errorFreeBlock_iff : (nodes : List Node) → (errorFreeBlock nodes ↔ ∀ e, .astError e ∉ allNodes nodes)
  | [] => by simp [errorFreeBlock, allNodes]
  | node :: rest => by
    simp [errorFreeBlock, allNodes, Node.errorFree_iff node, errorFreeBlock_iff rest, forall_and]

end

mutual

theorem Expr.subs_wf : (e : Expr) → e.WF → ∀ x ∈ e.subs, x.WF ∧ x.toks.Sublist e.toks
  | .value v, h => by intro x hx; cases List.mem_singleton.1 hx; exact ⟨h, List.Sublist.refl _⟩
  | .unary op e, h => by
    intro x hx
    rcases List.mem_cons.1 hx with rfl | hx
    · exact ⟨h, List.Sublist.refl _⟩
    · rw [Expr.WF] at h
      obtain ⟨h1, h2⟩ := Expr.subs_wf e h.2 x hx
      exact ⟨h1, by rw [Expr.toks]; exact h2.cons _⟩
  | .binary op l an r, h => by
    intro x hx
    rcases List.mem_cons.1 hx with rfl | hx
    · exact ⟨h, List.Sublist.refl _⟩
    · rw [Expr.WF] at h
      rcases List.mem_append.1 hx with hx | hx
      · obtain ⟨h1, h2⟩ := Expr.subs_wf l h.2.1 x hx
        exact ⟨h1, by rw [Expr.toks]; exact (h2.trans (List.sublist_append_left _ _)).cons _⟩
      · obtain ⟨h1, h2⟩ := Expr.subs_wf r h.2.2.2.2 x hx
        refine ⟨h1, ?_⟩
        rw [Expr.toks]
        exact ((h2.trans (List.sublist_append_right _ _)).trans (List.sublist_append_right _ _)).cons _
  | .nary op es mkay, h => by
    intro x hx
    rcases List.mem_cons.1 hx with rfl | hx
    · exact ⟨h, List.Sublist.refl _⟩
    · rw [Expr.WF] at h
      obtain ⟨h1, h2⟩ := subsOperands_wf es _ h.2.1 x hx
      exact ⟨h1, by rw [Expr.toks]; exact (h2.trans (List.sublist_append_left _ _)).cons _⟩

theorem subsOperands_wf : (es : List Operand) → (closed : Bool) → wfOperands es closed → ∀ x ∈ subsOperands es,
    x.WF ∧ x.toks.Sublist (toksOperands es)
  | [], _, _ => by simp [subsOperands]
  | .mk e an :: es, closed, h => by
    rw [wfOperands] at h
    intro x hx
    rcases List.mem_append.1 hx with hx | hx
    · obtain ⟨h1, h2⟩ := Expr.subs_wf e h.1 x hx
      exact ⟨h1, by rw [toksOperands]; exact h2.trans (List.sublist_append_left _ _)⟩
    · obtain ⟨h1, h2⟩ := subsOperands_wf es closed h.2.2.2 x hx
      refine ⟨h1, ?_⟩
      rw [toksOperands]
      exact (h2.trans (List.sublist_append_right _ _)).trans (List.sublist_append_right _ _)

end

theorem toksOmgs_exprs : (omgs : List WtfOmg) → wfOmgs omgs → ∀ x ∈ omgs.map (fun | .mk _ e _ => e),
    Expr.WF x ∧ x.toks.Sublist (toksOmgs omgs)
  | [], _ => by simp
  | .mk t e b :: rest, h => by
    intro x hx
    rcases List.mem_cons.1 hx with rfl | hx
    · exact ⟨h.2.1, (List.sublist_append_left _ _).cons _⟩
    · obtain ⟨h1, h2⟩ := toksOmgs_exprs rest h.2.2.2 x hx
      exact ⟨h1, ((h2.trans (List.sublist_append_right _ _)).trans (List.sublist_append_right _ _)).cons _⟩

theorem toksMebbes_exprs : (mebbes : List Mebbe) → wfMebbes mebbes → ∀ x ∈ mebbes.map (fun | .mk _ e _ => e),
    Expr.WF x ∧ x.toks.Sublist (toksMebbes mebbes)
  | [], _ => by simp
  | .mk t e b :: rest, h => by
    intro x hx
    rcases List.mem_cons.1 hx with rfl | hx
    · exact ⟨h.2.1, (List.sublist_append_left _ _).cons _⟩
    · obtain ⟨h1, h2⟩ := toksMebbes_exprs rest h.2.2.2 x hx
      exact ⟨h1, ((h2.trans (List.sublist_append_right _ _)).trans (List.sublist_append_right _ _)).cons _⟩

theorem sublist_flatMap {es : List Expr} {x : Expr} (h : x ∈ es) : x.toks.Sublist (es.flatMap (·.toks)) := by
  obtain ⟨a, b, rfl⟩ := List.append_of_mem h
  simp only [List.flatMap_append, List.flatMap_cons]
  exact (List.sublist_append_left _ _).trans (List.sublist_append_right _ _)

/-- The expressions of a well formed node are well formed, and their tokens are among its tokens. -/
theorem Node.exprs_wf (node : Node) (h : node.WF) : ∀ x ∈ node.exprs, x.WF ∧ x.toks.Sublist node.toks := by
  intro x hx
  cases node with
  | iHasA n =>
    obtain ⟨t, i, v⟩ := n
    cases v with
    | none => simp [Node.exprs] at hx
    | some v =>
      cases v with
      | type ty => simp [Node.exprs] at hx
      | expression e =>
        simp only [Node.exprs, Option.toList, List.flatMap_cons, List.flatMap_nil, List.append_nil,
          List.mem_singleton] at hx
        subst hx
        refine ⟨(h.2.2 _ rfl).1, ?_⟩
        simp only [Node.toks, Option.toList, List.flatMap_cons, List.flatMap_nil, List.append_nil,
          IHasAInitialValue.toks]
        exact (List.sublist_append_right _ _).cons _
  | imInYr t label op cond body endLabel =>
    cases cond with
    | none => simp [Node.exprs] at hx
    | some c =>
      have hc := h.2.2.2.1 c rfl
      cases c <;>
      · simp only [Node.exprs, Option.toList, List.map_cons, List.map_nil, List.mem_singleton] at hx
        subst hx
        refine ⟨hc, ?_⟩
        simp only [Node.toks, Option.toList, List.flatMap_cons, List.flatMap_nil, List.append_nil,
          LoopCondition.toks]
        exact ((List.sublist_append_left _ _).trans (List.sublist_append_right _ _)).cons _ |>.cons _
  | bukkitSetSlot n =>
    rw [List.mem_singleton.1 hx]
    exact ⟨h.2.2, (List.sublist_append_right _ _).trans (List.sublist_append_right _ _)⟩
  | variableAssignment n =>
    rw [List.mem_singleton.1 hx]
    exact ⟨h.2.2, ((List.Sublist.refl _).cons _).trans (List.sublist_append_right _ _)⟩
  | visible n => exact ⟨h.2.1 x hx, ((sublist_flatMap hx).trans (List.sublist_append_left _ _)).cons _⟩
  | foundYr n => rw [List.mem_singleton.1 hx]; exact ⟨h.2, (List.Sublist.refl _).cons _⟩
  | wtf t omgs o =>
    obtain ⟨h1, h2⟩ := toksOmgs_exprs omgs h.2.1 x hx
    exact ⟨h1, (h2.trans (List.sublist_append_left _ _)).cons _⟩
  | oRly t y n m =>
    obtain ⟨h1, h2⟩ := toksMebbes_exprs m h.2.2.1 x hx
    exact ⟨h1, ((h2.trans (List.sublist_append_left _ _)).trans (List.sublist_append_right _ _)).cons _⟩
  | iIz n => exact ⟨h.2.2 x hx, ((sublist_flatMap hx).trans (List.sublist_append_right _ _)).cons _⟩
  | expression e => rw [List.mem_singleton.1 hx]; exact ⟨h, List.Sublist.refl _⟩
  | hai n => cases hx
  | howIzI t name params body => cases hx
  | gtfo t => cases hx
  | gimmeh n => cases hx
  | astError e => cases hx
  | kThxBye t => cases hx

/-! ## Inner blocks -/

theorem foldl_push {α β : Type} (f : α → β) (l : List α) (vec : List β) :
    l.foldl (fun vec m => vec ++ [f m]) vec = vec ++ l.map f := by
  induction l generalizing vec with
  | nil => simp
  | cons a l ih => simp [ih]

theorem toksOmgs_blocks : (omgs : List WtfOmg) → ((omgs.map (·.block)).flatMap toksBlock).Sublist (toksOmgs omgs)
  | [] => List.Sublist.refl _
  | .mk _ _ b :: rest =>
    (((List.Sublist.refl (toksBlock b)).append (toksOmgs_blocks rest)).trans (List.sublist_append_right _ _)).cons _

theorem toksMebbes_blocks : (mebbes : List Mebbe) →
    ((mebbes.map (·.block)).flatMap toksBlock).Sublist (toksMebbes mebbes)
  | [] => List.Sublist.refl _
  | .mk _ _ b :: rest =>
    (((List.Sublist.refl (toksBlock b)).append (toksMebbes_blocks rest)).trans (List.sublist_append_right _ _)).cons _

theorem errorFreeOmgs_blocks : (omgs : List WtfOmg) →
    (errorFreeOmgs omgs ↔ ∀ b ∈ omgs.map (·.block), errorFreeBlock b)
  | [] => by simp [errorFreeOmgs]
  | .mk t e b :: rest => by simp [errorFreeOmgs, errorFreeOmgs_blocks rest, WtfOmg.block]

theorem errorFreeMebbes_blocks : (mebbes : List Mebbe) →
    (errorFreeMebbes mebbes ↔ ∀ b ∈ mebbes.map (·.block), errorFreeBlock b)
  | [] => by simp [errorFreeMebbes]
  | .mk t e b :: rest => by simp [errorFreeMebbes, errorFreeMebbes_blocks rest, Mebbe.block]

end Lol
