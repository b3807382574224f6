import Verif.Parser.ShapeSpec
import Verif.Parser.StmtSpec

/-! # Lemmas: the tokens and the shape of a tree whose tokens are replaced -/

namespace Lol

/-! ## Tokens -/

section
variable {f : Token → Token}

theorem optMap_toList (a : Option Token) : (a.map f).toList = a.toList.map f := by cases a <;> rfl

theorem optMap_flatMap {α : Type} {g : α → α} {toks : α → List Token} (H : ∀ a, toks (g a) = (toks a).map f)
    (a : Option α) : (a.map g).toList.flatMap toks = (a.toList.flatMap toks).map f := by cases a <;> simp [H]

theorem listMap_flatMap {α : Type} {g : α → α} {toks : α → List Token} (H : ∀ a, toks (g a) = (toks a).map f)
    (l : List α) : (l.map g).flatMap toks = (l.flatMap toks).map f := by
  induction l with
  | nil => rfl
  | cons a l ih => simp [H, ih]

theorem Identifier.toks_map (i : Identifier) : (i.map f).toks = i.toks.map f := by
  simp [Identifier.map, Identifier.toks, optMap_toList]

theorem VariableAccessSlot.toks_map (s : VariableAccessSlot) : (s.map f).toks = s.toks.map f := by
  simp [VariableAccessSlot.map, VariableAccessSlot.toks, Identifier.toks_map]

theorem VariableAccess.toks_map (v : VariableAccess) : (v.map f).toks = v.toks.map f := by
  simp only [VariableAccess.map, VariableAccess.toks, Identifier.toks_map, listMap_flatMap VariableAccessSlot.toks_map,
    List.map_append]

theorem ExprValue.toks_map : (v : ExprValue) → (v.map f).toks = v.toks.map f
  | .variableAccess v => v.toks_map
  | .literal _ => rfl

theorem ASTType.token_map (t : ASTType) : (t.map f).token = f t.token := by cases t <;> rfl

theorem BinaryOpt.token_map (o : BinaryOpt) : (o.map f).token = f o.token := by cases o <;> rfl

theorem UnaryOpt.token_map (o : UnaryOpt) : (o.map f).token = f o.token := by cases o; rfl

theorem NaryOpt.token_map (o : NaryOpt) : (o.map f).token = f o.token := by cases o <;> rfl

theorem LoopOperation.token_map (o : LoopOperation) : (o.map f).token = f o.token := by cases o <;> rfl

mutual

theorem Expr.toks_map : (e : Expr) → (e.map f).toks = e.toks.map f
  | .binary o l an r => by
    simp only [Expr.map, Expr.toks, BinaryOpt.token_map, l.toks_map, r.toks_map, optMap_toList, List.map_append,
      List.map_cons]
  | .unary o e => by simp only [Expr.map, Expr.toks, UnaryOpt.token_map, e.toks_map, List.map_cons]
  | .nary o es mkay => by
    simp only [Expr.map, Expr.toks, NaryOpt.token_map, toksOperands_map es, optMap_toList, List.map_append,
      List.map_cons]
  | .value v => by simp only [Expr.map, Expr.toks, v.toks_map]

theorem toksOperands_map : (es : List Operand) → toksOperands (mapOperands f es) = (toksOperands es).map f
  | [] => rfl
  | .mk e an :: es => by
    simp only [mapOperands, toksOperands, e.toks_map, toksOperands_map es, optMap_toList, List.map_append]

end

theorem ASTError.toks_map (e : ASTError) : (e.map f).toks = e.toks.map f := by
  cases e <;> first | rfl | (rename_i x; cases x <;> rfl)

theorem IHasAInitialValue.toks_map : (v : IHasAInitialValue) → (v.map f).toks = v.toks.map f
  | .expression e => e.toks_map
  | .type t => by simp only [IHasAInitialValue.map, IHasAInitialValue.toks, t.token_map, List.map_cons, List.map_nil]

theorem LoopCondition.toks_map : (c : LoopCondition) → (c.map f).toks = c.toks.map f
  | .til e => e.toks_map
  | .wile e => e.toks_map

theorem LoopIterationOperation.toks_map (o : LoopIterationOperation) : (o.map f).toks = o.toks.map f := by
  simp only [LoopIterationOperation.map, LoopIterationOperation.toks, LoopOperation.token_map, VariableAccess.toks_map,
    List.map_cons]

mutual

theorem Node.toks_map : (x : Node) → (x.map f).toks = x.toks.map f
  | .iHasA n => by
    simp only [Node.map, IHasA.map, Node.toks, Identifier.toks_map, optMap_flatMap IHasAInitialValue.toks_map,
      List.map_append, List.map_cons]
  | .hai n => by simp only [Node.map, Hai.map, Node.toks, List.map_cons]
  | .imInYr t label op cond body endLabel => by
    simp only [Node.map, Node.toks, optMap_flatMap LoopIterationOperation.toks_map,
      optMap_flatMap LoopCondition.toks_map, toksBlock_map body, List.map_append, List.map_cons, List.map_nil]
  | .bukkitSetSlot n => by
    simp only [Node.map, BukkitSetSlot.map, Node.toks, VariableAccess.toks_map, Identifier.toks_map, Expr.toks_map,
      List.map_append]
  | .variableAssignment n => by
    simp only [Node.map, VariableAssignment.map, Node.toks, VariableAccess.toks_map, Expr.toks_map, List.map_append,
      List.map_cons]
  | .visible n => by
    simp only [Node.map, Visible.map, Node.toks, listMap_flatMap Expr.toks_map, optMap_toList, List.map_append,
      List.map_cons]
  | .foundYr n => by simp only [Node.map, FoundYr.map, Node.toks, Expr.toks_map, List.map_cons]
  | .wtf t omgs omgWtf => by
    simp only [Node.map, Node.toks, toksOmgs_map omgs, toksOmgWtf_map omgWtf, List.map_append, List.map_cons]
  | .oRly t yaRly noWai mebbes => by
    simp only [Node.map, Node.toks, toksYaRly_map yaRly, toksMebbes_map mebbes, toksNoWai_map noWai, List.map_append,
      List.map_cons]
  | .iIz n => by
    simp only [Node.map, IIz.map, Node.toks, VariableAccess.toks_map, listMap_flatMap Expr.toks_map, List.map_append,
      List.map_cons]
  | .howIzI t name params body => by
    simp only [Node.map, Node.toks, Identifier.toks_map, listMap_flatMap Identifier.toks_map, toksBlock_map body,
      List.map_append, List.map_cons]
  | .gtfo t => by simp only [Node.map, Node.toks, List.map_cons, List.map_nil]
  | .gimmeh n => by simp only [Node.map, Gimmeh.map, Node.toks, VariableAccess.toks_map, List.map_cons]
  | .expression e => by simp only [Node.map, Node.toks, e.toks_map]
  | .astError e => by simp only [Node.map, Node.toks, e.toks_map]
  | .kThxBye t => by simp only [Node.map, Node.toks, List.map_cons, List.map_nil]

theorem toksOmgs_map : (l : List WtfOmg) → toksOmgs (mapOmgs f l) = (toksOmgs l).map f
  | [] => rfl
  | .mk t e b :: l => by
    simp only [mapOmgs, toksOmgs, e.toks_map, toksBlock_map b, toksOmgs_map l, List.map_append, List.map_cons]

theorem toksOmgWtf_map : (l : Option WtfOmgWtf) → toksOmgWtf (mapOmgWtf f l) = (toksOmgWtf l).map f
  | none => rfl
  | some (.mk t b) => by simp only [mapOmgWtf, toksOmgWtf, toksBlock_map b, List.map_cons]

theorem toksYaRly_map : (l : Option YaRly) → toksYaRly (mapYaRly f l) = (toksYaRly l).map f
  | none => rfl
  | some (.mk t b) => by simp only [mapYaRly, toksYaRly, toksBlock_map b, List.map_cons]

theorem toksMebbes_map : (l : List Mebbe) → toksMebbes (mapMebbes f l) = (toksMebbes l).map f
  | [] => rfl
  | .mk t e b :: l => by
    simp only [mapMebbes, toksMebbes, e.toks_map, toksBlock_map b, toksMebbes_map l, List.map_append, List.map_cons]

theorem toksNoWai_map : (l : Option NoWai) → toksNoWai (mapNoWai f l) = (toksNoWai l).map f
  | none => rfl
  | some (.mk t b) => by simp only [mapNoWai, toksNoWai, toksBlock_map b, List.map_cons]

theorem toksBlock_map : (b : List Node) → toksBlock (mapBlock f b) = (toksBlock b).map f
  | [] => rfl
  | x :: b => by simp only [mapBlock, toksBlock, x.toks_map, toksBlock_map b, List.map_append]

end

end

/-! ## Two replacements -/

section
variable {f g : Token → Token}

theorem Identifier.map_map (i : Identifier) : (i.map f).map g = i.map (g ∘ f) := by
  simp [Identifier.map, Option.map_map]

theorem VariableAccessSlot.map_map (s : VariableAccessSlot) : (s.map f).map g = s.map (g ∘ f) := by
  simp [VariableAccessSlot.map, Identifier.map_map]

theorem VariableAccess.map_map (v : VariableAccess) : (v.map f).map g = v.map (g ∘ f) := by
  simp [VariableAccess.map, Identifier.map_map, Function.comp_def, VariableAccessSlot.map_map]

theorem ExprValue.map_map : (v : ExprValue) → (v.map f).map g = v.map (g ∘ f)
  | .variableAccess v => by simp only [ExprValue.map, v.map_map]
  | .literal _ => rfl

theorem ASTType.map_map (t : ASTType) : (t.map f).map g = t.map (g ∘ f) := by cases t <;> rfl

theorem BinaryOpt.map_map (o : BinaryOpt) : (o.map f).map g = o.map (g ∘ f) := by cases o <;> rfl

theorem UnaryOpt.map_map (o : UnaryOpt) : (o.map f).map g = o.map (g ∘ f) := by cases o; rfl

theorem NaryOpt.map_map (o : NaryOpt) : (o.map f).map g = o.map (g ∘ f) := by cases o <;> rfl

theorem LoopOperation.map_map (o : LoopOperation) : (o.map f).map g = o.map (g ∘ f) := by cases o <;> rfl

mutual

theorem Expr.map_map : (e : Expr) → (e.map f).map g = e.map (g ∘ f)
  | .binary o l an r => by
    simp only [Expr.map, BinaryOpt.map_map, l.map_map, r.map_map, Option.map_map]
  | .unary o e => by simp only [Expr.map, UnaryOpt.map_map, e.map_map]
  | .nary o es mkay => by simp only [Expr.map, NaryOpt.map_map, mapOperands_map es, Option.map_map]
  | .value v => by simp only [Expr.map, v.map_map]

theorem mapOperands_map : (es : List Operand) → mapOperands g (mapOperands f es) = mapOperands (g ∘ f) es
  | [] => rfl
  | .mk e an :: es => by simp only [mapOperands, e.map_map, mapOperands_map es, Option.map_map]

end

theorem ASTError.map_map (e : ASTError) : (e.map f).map g = e.map (g ∘ f) := by
  cases e <;> first | rfl | (rename_i x; cases x <;> rfl) | simp [ASTError.map]

theorem IHasAInitialValue.map_map : (v : IHasAInitialValue) → (v.map f).map g = v.map (g ∘ f)
  | .expression e => by simp only [IHasAInitialValue.map, e.map_map]
  | .type t => by simp only [IHasAInitialValue.map, t.map_map]

theorem LoopCondition.map_map : (c : LoopCondition) → (c.map f).map g = c.map (g ∘ f)
  | .til e => by simp only [LoopCondition.map, e.map_map]
  | .wile e => by simp only [LoopCondition.map, e.map_map]

theorem LoopIterationOperation.map_map (o : LoopIterationOperation) : (o.map f).map g = o.map (g ∘ f) := by
  simp only [LoopIterationOperation.map, LoopOperation.map_map, VariableAccess.map_map]

mutual

theorem Node.map_map : (x : Node) → (x.map f).map g = x.map (g ∘ f)
  | .iHasA n => by
    simp only [Node.map, IHasA.map, Identifier.map_map, Option.map_map, Function.comp_def, IHasAInitialValue.map_map]
  | .hai n => by simp only [Node.map, Hai.map, List.map_map, Function.comp_def]
  | .imInYr t label op cond body endLabel => by
    simp only [Node.map, Option.map_map, Function.comp_def, LoopIterationOperation.map_map, LoopCondition.map_map,
      mapBlock_map body]
  | .bukkitSetSlot n => by
    simp only [Node.map, BukkitSetSlot.map, VariableAccess.map_map, Identifier.map_map, Expr.map_map]
  | .variableAssignment n => by
    simp only [Node.map, VariableAssignment.map, VariableAccess.map_map, Expr.map_map, Function.comp_def]
  | .visible n => by
    simp only [Node.map, Visible.map, List.map_map, Option.map_map, Function.comp_def, Expr.map_map]
  | .foundYr n => by simp only [Node.map, FoundYr.map, Expr.map_map, Function.comp_def]
  | .wtf t omgs omgWtf => by
    simp only [Node.map, mapOmgs_map omgs, mapOmgWtf_map omgWtf, Function.comp_def]
  | .oRly t yaRly noWai mebbes => by
    simp only [Node.map, mapYaRly_map yaRly, mapMebbes_map mebbes, mapNoWai_map noWai, Function.comp_def]
  | .iIz n => by
    simp only [Node.map, IIz.map, VariableAccess.map_map, List.map_map, Function.comp_def, Expr.map_map]
  | .howIzI t name params body => by
    simp only [Node.map, Identifier.map_map, List.map_map, Function.comp_def, mapBlock_map body]
  | .gtfo t => by simp only [Node.map, Function.comp_def]
  | .gimmeh n => by simp only [Node.map, Gimmeh.map, VariableAccess.map_map, Function.comp_def]
  | .expression e => by simp only [Node.map, e.map_map]
  | .astError e => by simp only [Node.map, e.map_map]
  | .kThxBye t => by simp only [Node.map, Function.comp_def]

theorem mapOmgs_map : (l : List WtfOmg) → mapOmgs g (mapOmgs f l) = mapOmgs (g ∘ f) l
  | [] => rfl
  | .mk t e b :: l => by simp only [mapOmgs, e.map_map, mapBlock_map b, mapOmgs_map l, Function.comp_def]

theorem mapOmgWtf_map : (l : Option WtfOmgWtf) → mapOmgWtf g (mapOmgWtf f l) = mapOmgWtf (g ∘ f) l
  | none => rfl
  | some (.mk t b) => by simp only [mapOmgWtf, mapBlock_map b, Function.comp_def]

theorem mapYaRly_map : (l : Option YaRly) → mapYaRly g (mapYaRly f l) = mapYaRly (g ∘ f) l
  | none => rfl
  | some (.mk t b) => by simp only [mapYaRly, mapBlock_map b, Function.comp_def]

theorem mapMebbes_map : (l : List Mebbe) → mapMebbes g (mapMebbes f l) = mapMebbes (g ∘ f) l
  | [] => rfl
  | .mk t e b :: l => by simp only [mapMebbes, e.map_map, mapBlock_map b, mapMebbes_map l, Function.comp_def]

theorem mapNoWai_map : (l : Option NoWai) → mapNoWai g (mapNoWai f l) = mapNoWai (g ∘ f) l
  | none => rfl
  | some (.mk t b) => by simp only [mapNoWai, mapBlock_map b, Function.comp_def]

theorem mapBlock_map : (b : List Node) → mapBlock g (mapBlock f b) = mapBlock (g ∘ f) b
  | [] => rfl
  | x :: b => by simp only [mapBlock, x.map_map, mapBlock_map b]

end

end

theorem shapeBlock_map (f : Token → Token) (b : List Node) : shapeBlock (mapBlock f b) = shapeBlock b :=
  mapBlock_map b

end Lol
