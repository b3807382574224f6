import Verif.Parser.CoverLemmas
import Verif.Parser.EditSpec
import Verif.Parser.MapSpec

/-! # Helper lemmas: the errors of two trees that differ in the nodes of one statement -/

namespace Lol

mutual

theorem Node.errors_map (f : Token → Token) : (n : Node) → (n.map f).errors = n.errors.map (ASTError.map f)
  | .astError e => by simp [Node.map, Node.errors]
  | .imInYr _ _ _ _ body _ => by simp [Node.map, Node.errors, errorsBlock_map f body]
  | .wtf _ omgs omgWtf => by simp [Node.map, Node.errors, errorsOmgs_map f omgs, errorsOmgWtf_map f omgWtf]
  | .oRly _ yaRly noWai mebbes => by
      simp [Node.map, Node.errors, errorsYaRly_map f yaRly, errorsMebbes_map f mebbes, errorsNoWai_map f noWai]
  | .howIzI _ _ _ body => by simp [Node.map, Node.errors, errorsBlock_map f body]
  | .iHasA _ | .hai _ | .bukkitSetSlot _ | .variableAssignment _ | .visible _ | .foundYr _ | .iIz _ | .gtfo _
  | .gimmeh _ | .expression _ | .kThxBye _ => by simp [Node.map, Node.errors]

theorem errorsOmgs_map (f : Token → Token) : (l : List WtfOmg) →
    errorsOmgs (mapOmgs f l) = (errorsOmgs l).map (ASTError.map f)
  | [] => rfl
  | .mk _ _ b :: rest => by simp [mapOmgs, errorsOmgs, errorsBlock_map f b, errorsOmgs_map f rest]

theorem errorsOmgWtf_map (f : Token → Token) : (o : Option WtfOmgWtf) →
    errorsOmgWtf (mapOmgWtf f o) = (errorsOmgWtf o).map (ASTError.map f)
  | none => rfl
  | some (.mk _ b) => by simp [mapOmgWtf, errorsOmgWtf, errorsBlock_map f b]

theorem errorsYaRly_map (f : Token → Token) : (o : Option YaRly) →
    errorsYaRly (mapYaRly f o) = (errorsYaRly o).map (ASTError.map f)
  | none => rfl
  | some (.mk _ b) => by simp [mapYaRly, errorsYaRly, errorsBlock_map f b]

theorem errorsMebbes_map (f : Token → Token) : (l : List Mebbe) →
    errorsMebbes (mapMebbes f l) = (errorsMebbes l).map (ASTError.map f)
  | [] => rfl
  | .mk _ _ b :: rest => by simp [mapMebbes, errorsMebbes, errorsBlock_map f b, errorsMebbes_map f rest]

theorem errorsNoWai_map (f : Token → Token) : (o : Option NoWai) →
    errorsNoWai (mapNoWai f o) = (errorsNoWai o).map (ASTError.map f)
  | none => rfl
  | some (.mk _ b) => by simp [mapNoWai, errorsNoWai, errorsBlock_map f b]

theorem errorsBlock_map (f : Token → Token) : (b : List Node) →
    errorsBlock (mapBlock f b) = (errorsBlock b).map (ASTError.map f)
  | [] => rfl
  | n :: rest => by simp [mapBlock, errorsBlock, Node.errors_map f n, errorsBlock_map f rest]

end

theorem errorsOmgs_append (l r : List WtfOmg) : errorsOmgs (l ++ r) = errorsOmgs l ++ errorsOmgs r := by
  induction l with
  | nil => rfl
  | cons o l ih => obtain ⟨_, _, b⟩ := o; simp [errorsOmgs, ih]

theorem errorsMebbes_append (l r : List Mebbe) : errorsMebbes (l ++ r) = errorsMebbes l ++ errorsMebbes r := by
  induction l with
  | nil => rfl
  | cons o l ih => obtain ⟨_, _, b⟩ := o; simp [errorsMebbes, ih]

/-- The errors of two trees that differ in the nodes of one statement differ in the errors of these nodes. -/
theorem Edited.errors {W : Block → Block → Prop} {b b' : Block} (h : Edited W b b') :
    (errorsBlock b ≠ [] ∧ b' = b) ∨ ∃ p q x x', W x x' ∧ errorsBlock b = p ++ (errorsBlock x ++ q) ∧
      errorsBlock b' = p ++ (errorsBlock x' ++ q) := by
  have lift : ∀ {a b : Block} {n n' : Node} {u v : List ASTError} {body body' : Block},
      n.errors = u ++ (errorsBlock body ++ v) → n'.errors = u ++ (errorsBlock body' ++ v) →
      (body' = body → n' = n) →
      ((errorsBlock body ≠ [] ∧ body' = body) ∨ ∃ p q x x', W x x' ∧ errorsBlock body = p ++ (errorsBlock x ++ q) ∧
        errorsBlock body' = p ++ (errorsBlock x' ++ q)) →
      (errorsBlock (a ++ n :: b) ≠ [] ∧ a ++ n' :: b = a ++ n :: b) ∨ ∃ p q x x', W x x' ∧
        errorsBlock (a ++ n :: b) = p ++ (errorsBlock x ++ q) ∧
        errorsBlock (a ++ n' :: b) = p ++ (errorsBlock x' ++ q) := by
    intro a b n n' u v body body' h1 h2 h3 h4
    rcases h4 with ⟨h4, h5⟩ | ⟨p, q, x, x', hw, h4, h5⟩
    · refine .inl ⟨?_, by rw [h3 h5]⟩
      rw [errorsBlock_append, errorsBlock, h1]
      simp [h4]
    · refine .inr ⟨errorsBlock a ++ (u ++ p), q ++ (v ++ errorsBlock b), x, x', hw, ?_, ?_⟩
      · rw [errorsBlock_append, errorsBlock, h1, h4]; simp
      · rw [errorsBlock_append, errorsBlock, h2, h5]; simp
  induction h with
  | @lost e b he =>
    refine .inl ⟨?_, rfl⟩
    obtain ⟨u, v, rfl⟩ := List.append_of_mem he
    rw [errorsBlock_append]
    simp [errorsBlock, Node.errors]
  | @here x x' a b hw =>
    exact .inr ⟨errorsBlock a, errorsBlock b, x, x', hw, by simp [errorsBlock_append], by simp [errorsBlock_append]⟩
  | loop a b t label op cond endLabel _ ih =>
    exact lift (u := []) (v := []) (by simp [Node.errors]) (by simp [Node.errors]) (by rintro rfl; rfl) ih
  | function a b t name params _ ih =>
    exact lift (u := []) (v := []) (by simp [Node.errors]) (by simp [Node.errors]) (by rintro rfl; rfl) ih
  | case a b t l r omg e dflt _ ih =>
    exact lift (u := errorsOmgs l) (v := errorsOmgs r ++ errorsOmgWtf dflt)
      (by simp [Node.errors, errorsOmgs_append, errorsOmgs]) (by simp [Node.errors, errorsOmgs_append, errorsOmgs])
      (by rintro rfl; rfl) ih
  | dflt a b t omgs u _ ih =>
    exact lift (u := errorsOmgs omgs) (v := []) (by simp [Node.errors, errorsOmgWtf])
      (by simp [Node.errors, errorsOmgWtf]) (by rintro rfl; rfl) ih
  | yes a b t u no ms _ ih =>
    exact lift (u := []) (v := errorsMebbes ms ++ errorsNoWai no) (by simp [Node.errors, errorsYaRly])
      (by simp [Node.errors, errorsYaRly]) (by rintro rfl; rfl) ih
  | maybe a b t yes no l r u e _ ih =>
    exact lift (u := errorsYaRly yes ++ errorsMebbes l) (v := errorsMebbes r ++ errorsNoWai no)
      (by simp [Node.errors, errorsMebbes_append, errorsMebbes])
      (by simp [Node.errors, errorsMebbes_append, errorsMebbes]) (by rintro rfl; rfl) ih
  | no a b t u yes ms _ ih =>
    exact lift (u := errorsYaRly yes ++ errorsMebbes ms) (v := []) (by simp [Node.errors, errorsNoWai])
      (by simp [Node.errors, errorsNoWai]) (by rintro rfl; rfl) ih

end Lol
