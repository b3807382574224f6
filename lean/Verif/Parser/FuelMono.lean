import Verif.Parser.Exec
import Verif.Parser.Stmt

/-! # A larger recursion bound changes nothing but running out of it -/

namespace Lol

/-- `q` behaves as `p` wherever `p` does not run out of fuel. -/
inductive Prog.Le {α : Type} : Prog α → Prog α → Prop
  | outOfFuel (p : Prog α) : Le .outOfFuel p
  | ret (a : α) : Le (.ret a) (.ret a)
  | err (e : ASTError) : Le (.err e) (.err e)
  | panic (s : PanicSite) : Le (.panic s) (.panic s)
  | next {k k' : Option Token → Prog α} : (∀ t, Le (k t) (k' t)) → Le (.next k) (.next k')
  | peek {k k' : Option Token → Prog α} : (∀ t, Le (k t) (k' t)) → Le (.peek k) (.peek k')
  | nextStatement {k k' : List Token → Prog α} : (∀ t, Le (k t) (k' t)) →
      Le (.nextStatement k) (.nextStatement k')

namespace Prog

theorem Le.refl {α : Type} (p : Prog α) : Le p p := by
  induction p with
  | ret a => exact .ret a
  | err e => exact .err e
  | panic s => exact .panic s
  | outOfFuel => exact .outOfFuel _
  | next k ih => exact .next ih
  | peek k ih => exact .peek ih
  | nextStatement k ih => exact .nextStatement ih

theorem Le.trans {α : Type} {p q r : Prog α} (h : Le p q) (h' : Le q r) : Le p r := by
  induction h generalizing r with
  | outOfFuel => exact .outOfFuel _
  | ret | err | panic => exact h'
  | next _ ih => cases h' with | next h' => exact .next fun t => ih t (h' t)
  | peek _ ih => cases h' with | peek h' => exact .peek fun t => ih t (h' t)
  | nextStatement _ ih => cases h' with | nextStatement h' => exact .nextStatement fun t => ih t (h' t)

theorem Le.bind' {α β : Type} {p q : Prog α} {f g : α → Prog β} (h : Le p q) (hf : ∀ a, Le (f a) (g a)) :
    Le (p.bind f) (q.bind g) := by
  induction h with
  | outOfFuel => exact .outOfFuel _
  | ret a => exact hf a
  | err e => exact .err e
  | panic s => exact .panic s
  | next _ ih => exact .next ih
  | peek _ ih => exact .peek ih
  | nextStatement _ ih => exact .nextStatement ih

theorem Le.bind {α β : Type} {p q : Prog α} {f g : α → Prog β} (h : Le p q) (hf : ∀ a, Le (f a) (g a)) :
    Le (p >>= f) (q >>= g) := h.bind' hf

theorem Le.toResult {α : Type} {p q : Prog α} (h : Le p q) : Le p.toResult q.toResult := by
  induction h with
  | outOfFuel => exact .outOfFuel _
  | ret a => exact .ret _
  | err e => exact .ret _
  | panic s => exact .panic s
  | next _ ih => exact .next ih
  | peek _ ih => exact .peek ih
  | nextStatement _ ih => exact .nextStatement ih

theorem Le.run {σ α : Type} (I : IterOps σ) {p q : Prog α} (h : Le p q) (s : σ)
    (hp : p.run I s ≠ .outOfFuel) : q.run I s = p.run I s := by
  induction h generalizing s with
  | outOfFuel => exact absurd rfl hp
  | ret | err | panic => rfl
  | next _ ih => exact ih _ _ hp
  | peek _ ih => exact ih _ _ hp
  | nextStatement _ ih => exact ih _ _ hp

end Prog

open Prog

theorem parseSlots_le (n : Nat) : Le (VariableAccess.parseSlots n) (VariableAccess.parseSlots (n + 1)) := by
  induction n with
  | zero => exact .outOfFuel _
  | succ n ih =>
    rw [VariableAccess.parseSlots, VariableAccess.parseSlots]
    refine .bind (.refl _) fun o => ?_
    cases o with
    | none => exact .refl _
    | some t =>
      refine .bind (.refl _) fun o => ?_
      cases o with
      | none => exact .refl _
      | some t => exact .bind (.refl _) fun i => .bind ih fun _ => .refl _

theorem access_le (n : Nat) (t : Token) : Le (VariableAccess.parse n t) (VariableAccess.parse (n + 1) t) :=
  .bind (.refl _) fun _ => .bind (parseSlots_le n) fun _ => .refl _

theorem binary_le {f g : Token → Prog Expr} (h : ∀ t, Le (f t) (g t)) (o : BinaryOpt) :
    Le (parseBinary f o) (parseBinary g o) := by
  unfold parseBinary
  refine .bind (.refl _) fun o => ?_
  cases o with
  | none => exact .refl _
  | some t =>
    refine .bind (h t) fun e => .bind (.refl _) fun _ => .bind (.refl _) fun o => ?_
    cases o with
    | none => exact .refl _
    | some t => exact .bind (h t) fun _ => .refl _

theorem unary_le {f g : Token → Prog Expr} (h : ∀ t, Le (f t) (g t)) (o : UnaryOpt) :
    Le (parseUnary f o) (parseUnary g o) := by
  unfold parseUnary
  refine .bind (.refl _) fun o => ?_
  cases o with
  | none => exact .refl _
  | some t => exact .bind (h t) fun _ => .refl _

theorem operands_le {f g : Token → Prog Expr} (h : ∀ t, Le (f t) (g t)) (n : Nat) :
    Le (parseOperands f n) (parseOperands g (n + 1)) := by
  induction n with
  | zero => exact .outOfFuel _
  | succ n ih =>
    rw [parseOperands, parseOperands]
    refine .bind (.refl _) fun o => ?_
    cases o with
    | none => exact .refl _
    | some t => exact .bind (h t) fun _ => .bind (.refl _) fun _ => .bind ih fun _ => .refl _

theorem nary_le {f g : Token → Prog Expr} (h : ∀ t, Le (f t) (g t)) (n : Nat) (o : NaryOpt) :
    Le (parseNary f n o) (parseNary g (n + 1) o) :=
  .bind (operands_le h n) fun _ => .refl _

theorem expr_le (n : Nat) (t : Token) : Le (parseExpr n t) (parseExpr (n + 1) t) := by
  induction n generalizing t with
  | zero => exact .outOfFuel _
  | succ n ih =>
    have hb := binary_le ih
    have hu := unary_le ih
    have hn := nary_le ih n
    rw [parseExpr, parseExpr]
    split <;> first
      | exact hb _
      | exact hu _
      | exact hn _
      | exact .bind (access_le n t) fun _ => .refl _
      | exact .refl _

theorem iHasA_le (n : Nat) (t : Token) : Le (IHasA.parse n t) (IHasA.parse (n + 1) t) := by
  unfold IHasA.parse
  refine .bind (.refl _) fun o => ?_
  cases o with
  | none => exact .refl _
  | some t =>
    dsimp only
    split
    · refine .bind (.refl _) fun i => .bind (.refl _) fun o => ?_
      cases o with
      | none => exact .refl _
      | some a =>
        dsimp only
        split
        · refine .bind (.refl _) fun o => ?_
          cases o with
          | none => exact .refl _
          | some v =>
            dsimp only
            cases ASTType.tryFrom v with
            | some ty => exact .refl _
            | none => exact .bind (expr_le n v) fun _ => .refl _
        · exact .refl _
    · exact .refl _

theorem expressions_le (n m : Nat) : Le (Visible.parseExpressions n m) (Visible.parseExpressions (n + 1) (m + 1)) := by
  induction m with
  | zero => exact .outOfFuel _
  | succ m ih =>
    rw [Visible.parseExpressions, Visible.parseExpressions]
    refine .bind (.refl _) fun o => ?_
    cases o with
    | none => exact .refl _
    | some t => exact .bind (expr_le n t) fun _ => .bind ih fun _ => .refl _

theorem visible_le (n : Nat) (t : Token) : Le (Visible.parse n t) (Visible.parse (n + 1) t) :=
  .bind (expressions_le n n) fun _ => .refl _

theorem gimmeh_le (n : Nat) (t : Token) : Le (Gimmeh.parse n t) (Gimmeh.parse (n + 1) t) := by
  unfold Gimmeh.parse
  refine .bind (.refl _) fun o => ?_
  cases o with
  | none => exact .refl _
  | some t => exact .bind (access_le n t) fun _ => .refl _

theorem foundYr_le (n : Nat) (t : Token) : Le (FoundYr.parse n t) (FoundYr.parse (n + 1) t) := by
  unfold FoundYr.parse
  refine .bind (.refl _) fun o => ?_
  cases o with
  | none => exact .refl _
  | some t => exact .bind (expr_le n t) fun _ => .refl _

theorem assignment_le (n : Nat) (v : VariableAccess) :
    Le (VariableAssignment.parse n v) (VariableAssignment.parse (n + 1) v) := by
  unfold VariableAssignment.parse
  refine .bind (.refl _) fun o => ?_
  cases o with
  | none => exact .refl _
  | some t =>
    dsimp only
    split
    · refine .bind (.refl _) fun o => ?_
      cases o with
      | none => exact .refl _
      | some t => exact .bind (expr_le n t) fun _ => .refl _
    · exact .refl _

theorem setSlot_le (n : Nat) (v : VariableAccess) :
    Le (BukkitSetSlot.parse n v) (BukkitSetSlot.parse (n + 1) v) := by
  unfold BukkitSetSlot.parse
  refine .bind (.refl _) fun o => ?_
  cases o with
  | none => exact .refl _
  | some t =>
    dsimp only
    split
    · refine .bind (.refl _) fun o => ?_
      cases o with
      | none => exact .refl _
      | some t =>
        refine .bind (.refl _) fun i => .bind (.refl _) fun o => ?_
        cases o with
        | none => exact .refl _
        | some t =>
          dsimp only
          split
          · refine .bind (.refl _) fun o => ?_
            cases o with
            | none => exact .refl _
            | some t => exact .bind (expr_le n t) fun _ => .refl _
          · exact .refl _
    · exact .refl _

theorem arguments_le (n m : Nat) : Le (IIz.parseArguments n m) (IIz.parseArguments (n + 1) (m + 1)) := by
  induction m with
  | zero => exact .outOfFuel _
  | succ m ih =>
    rw [IIz.parseArguments, IIz.parseArguments]
    refine .bind (.refl _) fun o => ?_
    cases o with
    | none => exact .refl _
    | some t =>
      refine .bind (.refl _) fun o => ?_
      cases o with
      | none => exact .refl _
      | some t =>
        refine .bind (expr_le n t) fun e => .bind (.refl _) fun o => ?_
        cases o with
        | none => exact .refl _
        | some t => exact .bind ih fun _ => .refl _

theorem iIz_le (n : Nat) (t : Token) : Le (IIz.parse n t) (IIz.parse (n + 1) t) := by
  unfold IIz.parse
  refine .bind (.refl _) fun o => ?_
  cases o with
  | none => exact .refl _
  | some t => exact .bind (access_le n t) fun _ => .bind (arguments_le n n) fun _ => .refl _

theorem conditional_le (n : Nat) : Le (parseConditional n) (parseConditional (n + 1)) := by
  unfold parseConditional
  refine .bind (.refl _) fun o => ?_
  cases o with
  | none => exact .refl _
  | some t =>
    refine .bind (.refl _) fun o => ?_
    cases o with
    | none => exact .refl _
    | some t => exact .bind (expr_le n t) fun _ => .refl _

theorem iteration_le (n : Nat) : Le (parseIterationOperation n) (parseIterationOperation (n + 1)) := by
  unfold parseIterationOperation
  refine .bind (.refl _) fun o => ?_
  cases o with
  | none => exact .refl _
  | some t =>
    refine .bind (.refl _) fun o => ?_
    cases o with
    | none => exact .refl _
    | some t =>
      dsimp only
      split
      · refine .bind (.refl _) fun o => ?_
        cases o with
        | none => exact .refl _
        | some t => exact .bind (access_le n t) fun _ => .refl _
      · exact .refl _

theorem parameters_le (n : Nat) : Le (parseParameters n) (parseParameters (n + 1)) := by
  induction n with
  | zero => exact .outOfFuel _
  | succ n ih =>
    rw [parseParameters, parseParameters]
    refine .bind (.refl _) fun o => ?_
    cases o with
    | none => exact .refl _
    | some t =>
      refine .bind (.refl _) fun o => ?_
      cases o with
      | none => exact .refl _
      | some t =>
        refine .bind (.refl _) fun i => .bind (.refl _) fun o => ?_
        cases o with
        | none => exact .refl _
        | some t =>
          dsimp only
          split
          · exact .bind (.refl _) fun _ => .bind ih fun _ => .refl _
          · exact .refl _

section

variable {b b' : (Token → Bool) → Prog Block} (hb : ∀ stop, Le (b stop) (b' stop))
include hb

theorem imInYr_le (n : Nat) (t : Token) : Le (parseImInYr b n t) (parseImInYr b' (n + 1) t) := by
  unfold parseImInYr
  refine .bind (.refl _) fun o => ?_
  cases o with
  | none => exact .refl _
  | some t =>
    dsimp only
    split
    · exact .bind (iteration_le n) fun _ => .bind (conditional_le n) fun _ => .bind (.refl _) fun _ =>
        .bind (hb _) fun _ => .refl _
    · exact .refl _

theorem howIzI_le (n : Nat) (t : Token) : Le (parseHowIzI b n t) (parseHowIzI b' (n + 1) t) := by
  unfold parseHowIzI
  refine .bind (.refl _) fun o => ?_
  cases o with
  | none => exact .refl _
  | some t =>
    exact .bind (.refl _) fun _ => .bind (parameters_le n) fun _ => .bind (.refl _) fun _ =>
        .bind (hb _) fun _ => .refl _

theorem omgs_le (n m : Nat) : Le (parseOmgs b n m) (parseOmgs b' (n + 1) (m + 1)) := by
  induction m with
  | zero => exact .outOfFuel _
  | succ m ih =>
    rw [parseOmgs, parseOmgs]
    refine .bind (.refl _) fun o => ?_
    cases o with
    | none => exact .refl _
    | some t =>
      refine .bind (.refl _) fun o => ?_
      cases o with
      | none => exact .refl _
      | some t =>
        exact .bind (expr_le n t) fun _ => .bind (.refl _) fun _ => .bind (hb _) fun _ =>
          .bind ih fun _ => .refl _

theorem omgWtf_le : Le (parseOmgWtf b) (parseOmgWtf b') := by
  unfold parseOmgWtf
  refine .bind (.refl _) fun o => ?_
  cases o with
  | none => exact .refl _
  | some t => exact .bind (.refl _) fun _ => .bind (hb _) fun _ => .refl _

theorem wtf_le (n : Nat) (t : Token) : Le (parseWtf b n t) (parseWtf b' (n + 1) t) := by
  unfold parseWtf
  refine .bind (.refl _) fun o => ?_
  cases o with
  | none => exact .refl _
  | some t =>
    dsimp only
    split
    · exact .bind (.refl _) fun _ => .bind (omgs_le hb n n) fun _ => .bind (omgWtf_le hb) fun _ => .refl _
    · exact .refl _

theorem yaRly_le : Le (parseYaRly b) (parseYaRly b') := by
  unfold parseYaRly
  refine .bind (.refl _) fun o => ?_
  cases o with
  | none => exact .refl _
  | some t => exact .bind (.refl _) fun _ => .bind (hb _) fun _ => .refl _

theorem noWai_le : Le (parseNoWai b) (parseNoWai b') := by
  unfold parseNoWai
  refine .bind (.refl _) fun o => ?_
  cases o with
  | none => exact .refl _
  | some t => exact .bind (.refl _) fun _ => .bind (hb _) fun _ => .refl _

theorem mebbes_le (n m : Nat) : Le (parseMebbes b n m) (parseMebbes b' (n + 1) (m + 1)) := by
  induction m with
  | zero => exact .outOfFuel _
  | succ m ih =>
    rw [parseMebbes, parseMebbes]
    refine .bind (.refl _) fun o => ?_
    cases o with
    | none => exact .refl _
    | some t =>
      refine .bind (.refl _) fun o => ?_
      cases o with
      | none => exact .refl _
      | some t =>
        exact .bind (expr_le n t) fun _ => .bind (.refl _) fun _ => .bind (hb _) fun _ =>
          .bind ih fun _ => .refl _

theorem oRly_le (n : Nat) (t : Token) : Le (parseORly b n t) (parseORly b' (n + 1) t) := by
  unfold parseORly
  refine .bind (.refl _) fun o => ?_
  cases o with
  | none => exact .refl _
  | some t =>
    dsimp only
    split
    · exact .bind (.refl _) fun _ => .bind (yaRly_le hb) fun _ => .bind (mebbes_le hb n n) fun _ =>
        .bind (noWai_le hb) fun _ => .refl _
    · exact .refl _

omit hb in
theorem accessStatement_le (n : Nat) (t : Token) :
    Le (parseAccessStatement n t) (parseAccessStatement (n + 1) t) := by
  unfold parseAccessStatement
  refine .bind (access_le n t) fun v => .bind (.refl _) fun o => ?_
  cases o with
  | none => exact .refl _
  | some t =>
    dsimp only
    split
    · exact .bind (assignment_le n v) fun _ => .refl _
    · exact .bind (setSlot_le n v) fun _ => .refl _
    · exact .refl _

theorem statement_le (n : Nat) (t : Token) : Le (parseStatement b n t) (parseStatement b' (n + 1) t) := by
  unfold parseStatement
  split
  · exact accessStatement_le n t
  · split
    · exact .bind (iHasA_le n t) fun _ => .refl _
    · exact .bind (visible_le n t) fun _ => .refl _
    · exact .bind (gimmeh_le n t) fun _ => .refl _
    · exact .bind (foundYr_le n t) fun _ => .refl _
    · exact .refl _
    · exact .refl _
    · exact .refl _
    · exact .bind (iIz_le n t) fun _ => .refl _
    · exact imInYr_le hb n t
    · exact howIzI_le hb n t
    · exact wtf_le hb n t
    · exact oRly_le hb n t
    · exact .bind (expr_le n t) fun _ => .refl _

end

theorem block_le (n : Nat) (stop : Token → Bool) : Le (parseBlock n stop) (parseBlock (n + 1) stop) := by
  induction n generalizing stop with
  | zero => exact .outOfFuel _
  | succ n ih =>
    have htail : ∀ (f g : List Node → Prog Block), (∀ a, Le (f a) (g a)) →
        Le (do
          match ← nextStatementShouldBeEmpty.toResult with
          | .ok _ => f []
          | .error e => f [Node.astError e]) (do
          match ← nextStatementShouldBeEmpty.toResult with
          | .ok _ => g []
          | .error e => g [Node.astError e]) := by
      intro f g h
      refine .bind (.refl _) fun x => ?_
      cases x with
      | ok _ => exact h _
      | error e => exact h _
    have hmore : ∀ nodes errors : List Node, Le (do
        match ← peek with
        | none => pure (nodes ++ errors)
        | some token =>
          if stop token then pure (nodes ++ errors)
          else
            let more ← parseBlock n stop
            pure (nodes ++ errors ++ more)) (do
        match ← peek with
        | none => pure (nodes ++ errors)
        | some token =>
          if stop token then pure (nodes ++ errors)
          else
            let more ← parseBlock (n + 1) stop
            pure (nodes ++ errors ++ more)) := by
      intro nodes errors
      refine .bind (.refl _) fun o => ?_
      cases o with
      | none => exact .refl _
      | some t =>
        dsimp only
        split
        · exact .refl _
        · exact .bind (ih stop) fun _ => .refl _
    rw [parseBlock, parseBlock]
    refine .bind (.refl _) fun o => ?_
    cases o with
    | none => exact htail _ _ (hmore [])
    | some t =>
      refine .bind (.toResult (statement_le ih n t)) fun x => ?_
      cases x with
      | ok node => exact htail _ _ (hmore [node])
      | error e => exact htail _ _ (hmore [.astError e])

theorem block_le' {n m : Nat} (h : n ≤ m) (stop : Token → Bool) : Le (parseBlock n stop) (parseBlock m stop) := by
  induction h with
  | refl => exact .refl _
  | step _ ih => exact ih.trans (block_le _ stop)

end Lol
