import Verif.Parser.Stack
import Verif.Parser.StackSpec
import Verif.Parser.FuelMono

/-! # The parsers on a stack of limited size: lemmas -/

namespace Lol

/-! ## What a program can return -/

/-- Whatever the program returns satisfies `P`. -/
def Prog.Returns {α : Type} (P : α → Prop) : Prog α → Prop
  | .ret a => P a
  | .err _ => True
  | .panic _ => True
  | .outOfFuel => True
  | .next k => ∀ t, (k t).Returns P
  | .peek k => ∀ t, (k t).Returns P
  | .nextStatement k => ∀ ts, (k ts).Returns P

open Prog

theorem Prog.Returns.bind {α β : Type} {P : α → Prop} {Q : β → Prop} {p : Prog α} {f : α → Prog β} (hp : p.Returns P)
    (hf : ∀ a, P a → (f a).Returns Q) : (p >>= f).Returns Q := by
  change (p.bind f).Returns Q
  induction p with
  | ret a => exact hf a hp
  | err | panic | outOfFuel => trivial
  | next k ih => exact fun t => ih t (hp t)
  | peek k ih => exact fun t => ih t (hp t)
  | nextStatement k ih => exact fun t => ih t (hp t)

theorem Prog.Returns.any {α : Type} (p : Prog α) : p.Returns fun _ => True := by
  induction p with
  | ret | err | panic | outOfFuel => trivial
  | next k ih => exact ih
  | peek k ih => exact ih
  | nextStatement k ih => exact ih

/-- The first part does not matter. -/
theorem Prog.Returns.skip {α β : Type} {Q : β → Prop} {p : Prog α} {f : α → Prog β} (hf : ∀ a, (f a).Returns Q) :
    (p >>= f).Returns Q := (Returns.any p).bind fun a _ => hf a

theorem Prog.Returns.pure {α : Type} {P : α → Prop} {a : α} (h : P a) : (pure a : Prog α).Returns P := h

theorem Prog.Returns.mono {α : Type} {P Q : α → Prop} {p : Prog α} (hp : p.Returns P) (h : ∀ a, P a → Q a) :
    p.Returns Q := by
  induction p with
  | ret a => exact h a hp
  | err | panic | outOfFuel => trivial
  | next k ih => exact fun t => ih t (hp t)
  | peek k ih => exact fun t => ih t (hp t)
  | nextStatement k ih => exact fun t => ih t (hp t)

theorem Prog.Returns.toResult {α : Type} {P : α → Prop} {p : Prog α} (hp : p.Returns P) :
    p.toResult.Returns fun x => ∀ a, x = .ok a → P a := by
  induction p with
  | ret a => rintro _ ⟨⟩; exact hp
  | err e => rintro _ ⟨⟩
  | panic | outOfFuel => trivial
  | next k ih => exact fun t => ih t (hp t)
  | peek k ih => exact fun t => ih t (hp t)
  | nextStatement k ih => exact fun t => ih t (hp t)

theorem Prog.Returns.run {σ α : Type} (I : IterOps σ) {P : α → Prop} {p : Prog α} (hp : p.Returns P) {s s' : σ} {a : α}
    (h : p.run I s = .ok a s') : P a := by
  induction p generalizing s with
  | ret b => cases h; exact hp
  | err | panic | outOfFuel => cases h
  | next k ih => exact ih _ (hp _) h
  | peek k ih => exact ih _ (hp _) h
  | nextStatement k ih => exact ih _ (hp _) h

section

variable {d : Nat} {f : Token → Prog Expr} (hf : ∀ t, (f t).Returns (Expr.Fits d))
include hf

theorem binary_fits (o : BinaryOpt) : (parseBinary f o).Returns (Expr.Fits (d + 1)) := by
  unfold parseBinary
  refine .skip fun o => ?_
  cases o with
  | none => trivial
  | some t =>
    refine .bind (hf t) fun e he => .skip fun _ => .skip fun o => ?_
    cases o with
    | none => trivial
    | some t => exact .bind (hf t) fun e' he' => .binary he he'

theorem unary_fits (o : UnaryOpt) : (parseUnary f o).Returns (Expr.Fits (d + 1)) := by
  unfold parseUnary
  refine .skip fun o => ?_
  cases o with
  | none => trivial
  | some t => exact .bind (hf t) fun e he => .unary he

theorem operands_fits (n : Nat) : (parseOperands f n).Returns fun es => ∀ e an, .mk e an ∈ es → Expr.Fits d e := by
  induction n with
  | zero => trivial
  | succ n ih =>
    rw [parseOperands]
    refine .skip fun o => ?_
    cases o with
    | none => rintro _ _ ⟨⟩
    | some t =>
      refine .bind (hf t) fun e he => .skip fun an => .bind ih fun es hes => ?_
      intro e' an' h
      rcases List.mem_cons.1 h with h | h
      · cases h; exact he
      · exact hes _ _ h

theorem nary_fits (n : Nat) (o : NaryOpt) : (parseNary f n o).Returns (Expr.Fits (d + 1)) :=
  .bind (operands_fits hf n) fun _ h => .skip fun _ => .nary h

theorem exprBody_fits (n : Nat) (t : Token) : (exprBody f n t).Returns (Expr.Fits (d + 1)) := by
  have hb := binary_fits hf
  have hu := unary_fits hf
  have hn := nary_fits hf n
  unfold exprBody
  split <;> first
    | exact hb _
    | exact hu _
    | exact hn _
    | exact .skip fun _ => .value
    | exact Expr.Fits.value
    | trivial

theorem iHasA_fits (t : Token) : (IHasA.parseIn f t).Returns fun n => ∀ e ∈ (Node.iHasA n).exprs, e.Fits d := by
  unfold IHasA.parseIn
  refine .skip fun o => ?_
  cases o with
  | none => trivial
  | some t =>
    dsimp only
    split
    · refine .skip fun i => .skip fun o => ?_
      cases o with
      | none => simp [Node.exprs, Prog.Returns, Pure.pure]
      | some a =>
        dsimp only
        split
        · refine .skip fun o => ?_
          cases o with
          | none => trivial
          | some v =>
            dsimp only
            cases ASTType.tryFrom v with
            | some ty => simp [Node.exprs, Prog.Returns, Pure.pure]
            | none => exact .bind (hf v) fun e he => by simpa [Node.exprs, Prog.Returns, Pure.pure] using he
        · trivial
    · trivial

theorem expressions_fits (n : Nat) : (Visible.parseExpressionsIn f n).Returns fun l => ∀ e ∈ l, e.Fits d := by
  induction n with
  | zero => trivial
  | succ n ih =>
    rw [Visible.parseExpressionsIn]
    refine .skip fun o => ?_
    cases o with
    | none => rintro _ ⟨⟩
    | some t => exact .bind (hf t) fun e he => .bind ih fun es hes => List.forall_mem_cons.2 ⟨he, hes⟩

theorem arguments_fits (n : Nat) : (IIz.parseArgumentsIn f n).Returns fun l => ∀ e ∈ l, e.Fits d := by
  induction n with
  | zero => trivial
  | succ n ih =>
    rw [IIz.parseArgumentsIn]
    refine .skip fun o => ?_
    cases o with
    | none => rintro _ ⟨⟩
    | some t =>
      refine .skip fun o => ?_
      cases o with
      | none => trivial
      | some t =>
        refine .bind (hf t) fun e he => .skip fun o => ?_
        cases o with
        | none => exact List.forall_mem_cons.2 ⟨he, by simp⟩
        | some _ => exact .bind ih fun es hes => List.forall_mem_cons.2 ⟨he, hes⟩

end

/-- The node needs no more than `d` levels of calls. -/
def NodeFits (d : Nat) (node : Node) : Prop :=
  (∀ e ∈ node.parsedExprs, e.Fits d) ∧ ∀ inner ∈ node.blocks, BlockFits d inner

theorem NodeFits.of {d : Nat} {node : Node} (h : ∀ e ∈ node.exprs, e.Fits d) (hb : ∀ b ∈ node.blocks, BlockFits d b) :
    NodeFits d node := by
  refine ⟨?_, hb⟩
  unfold Node.parsedExprs
  split
  · simp
  · exact h

section

variable {d : Nat} {f : Token → Prog Expr} {b : (Token → Bool) → Prog Block} (hf : ∀ t, (f t).Returns (Expr.Fits d))
  (hb : ∀ stop, (b stop).Returns (BlockFits d))

include hf in
theorem conditional_fits : (parseConditionalIn f).Returns fun c =>
    ∀ e ∈ c.toList.map (fun | .til e => e | .wile e => e), Expr.Fits d e := by
  unfold parseConditionalIn
  refine .skip fun o => ?_
  cases o with
  | none => rintro _ ⟨⟩
  | some t =>
    refine .skip fun o => ?_
    cases o with
    | none => trivial
    | some t =>
      refine .bind (hf t) fun e he => ?_
      split <;> simpa [Prog.Returns, Pure.pure] using he

include hf hb in
theorem imInYr_fits (n : Nat) (t : Token) : (parseImInYrIn b f n t).Returns (NodeFits d) := by
  unfold parseImInYrIn
  refine .skip fun o => ?_
  cases o with
  | none => trivial
  | some t =>
    dsimp only
    split
    · refine .skip fun it => .bind (conditional_fits hf) fun c hc => .skip fun _ => .bind (hb _) fun bl hbl =>
        .skip fun o => ?_
      cases o with
      | none => trivial
      | some t =>
        refine .skip fun o => ?_
        cases o with
        | none => trivial
        | some t =>
          dsimp only
          split
          · exact .of hc (by simpa [Node.blocks] using hbl)
          · trivial
    · trivial

include hb in
theorem howIzI_fits (n : Nat) (t : Token) : (parseHowIzI b n t).Returns (NodeFits d) := by
  unfold parseHowIzI
  refine .skip fun o => ?_
  cases o with
  | none => trivial
  | some t =>
    refine .skip fun _ => .skip fun _ => .skip fun _ => .bind (hb _) fun bl hbl => .skip fun o => ?_
    cases o with
    | none => trivial
    | some t =>
      dsimp only
      split
      · exact .skip fun _ => .of (by simp [Node.exprs]) (by simpa [Node.blocks] using hbl)
      · trivial

include hf hb in
theorem omgs_fits (n : Nat) : (parseOmgsIn b f n).Returns fun l =>
    (∀ e ∈ l.map (fun | .mk _ e _ => e), Expr.Fits d e) ∧ ∀ x ∈ l.map (fun | .mk _ _ b => b), BlockFits d x := by
  induction n with
  | zero => trivial
  | succ n ih =>
    rw [parseOmgsIn]
    refine .skip fun o => ?_
    cases o with
    | none => simp [Prog.Returns, Pure.pure]
    | some t =>
      refine .skip fun o => ?_
      cases o with
      | none => trivial
      | some t =>
        refine .bind (hf t) fun e he => .skip fun _ => .bind (hb _) fun bl hbl => .bind ih fun l hl => ?_
        exact ⟨List.forall_mem_cons.2 ⟨he, hl.1⟩, List.forall_mem_cons.2 ⟨hbl, hl.2⟩⟩

include hf hb in
theorem mebbes_fits (n : Nat) : (parseMebbesIn b f n).Returns fun l =>
    (∀ e ∈ l.map (fun | .mk _ e _ => e), Expr.Fits d e) ∧ ∀ x ∈ l.map (fun | .mk _ _ b => b), BlockFits d x := by
  induction n with
  | zero => trivial
  | succ n ih =>
    rw [parseMebbesIn]
    refine .skip fun o => ?_
    cases o with
    | none => simp [Prog.Returns, Pure.pure]
    | some t =>
      refine .skip fun o => ?_
      cases o with
      | none => trivial
      | some t =>
        refine .bind (hf t) fun e he => .skip fun _ => .bind (hb _) fun bl hbl => .bind ih fun l hl => ?_
        exact ⟨List.forall_mem_cons.2 ⟨he, hl.1⟩, List.forall_mem_cons.2 ⟨hbl, hl.2⟩⟩

include hb in
theorem omgWtf_fits : (parseOmgWtf b).Returns fun o => ∀ x ∈ o.toList.map (fun | .mk _ b => b), BlockFits d x := by
  unfold parseOmgWtf
  refine .skip fun o => ?_
  cases o with
  | none => simp [Prog.Returns, Pure.pure]
  | some t => exact .skip fun _ => .bind (hb _) fun bl hbl => by simpa [Prog.Returns, Pure.pure] using hbl

include hb in
theorem yaRly_fits : (parseYaRly b).Returns fun o => ∀ x ∈ o.toList.map (fun | .mk _ b => b), BlockFits d x := by
  unfold parseYaRly
  refine .skip fun o => ?_
  cases o with
  | none => simp [Prog.Returns, Pure.pure]
  | some t => exact .skip fun _ => .bind (hb _) fun bl hbl => by simpa [Prog.Returns, Pure.pure] using hbl

include hb in
theorem noWai_fits : (parseNoWai b).Returns fun o => ∀ x ∈ o.toList.map (fun | .mk _ b => b), BlockFits d x := by
  unfold parseNoWai
  refine .skip fun o => ?_
  cases o with
  | none => simp [Prog.Returns, Pure.pure]
  | some t => exact .skip fun _ => .bind (hb _) fun bl hbl => by simpa [Prog.Returns, Pure.pure] using hbl

include hf hb in
theorem wtf_fits (n : Nat) (t : Token) : (parseWtfIn b f n t).Returns (NodeFits d) := by
  unfold parseWtfIn
  refine .skip fun o => ?_
  cases o with
  | none => trivial
  | some t =>
    dsimp only
    split
    · refine .skip fun _ => .bind (omgs_fits hf hb n) fun l hl => .bind (omgWtf_fits hb) fun w hw => .skip fun o => ?_
      cases o with
      | none => trivial
      | some t =>
        dsimp only
        split
        · refine .skip fun _ => .of hl.1 fun x hx => ?_
          rcases List.mem_append.1 hx with hx | hx
          · exact hl.2 x hx
          · exact hw x hx
        · trivial
    · trivial

include hf hb in
theorem oRly_fits (n : Nat) (t : Token) : (parseORlyIn b f n t).Returns (NodeFits d) := by
  unfold parseORlyIn
  refine .skip fun o => ?_
  cases o with
  | none => trivial
  | some t =>
    dsimp only
    split
    · refine .skip fun _ => .bind (yaRly_fits hb) fun y hy => .bind (mebbes_fits hf hb n) fun l hl =>
        .bind (noWai_fits hb) fun w hw => .skip fun o => ?_
      cases o with
      | none => trivial
      | some t =>
        dsimp only
        split
        · refine .of hl.1 fun x hx => ?_
          rcases List.mem_append.1 hx with hx | hx
          · exact hy x hx
          rcases List.mem_append.1 hx with hx | hx
          · exact hl.2 x hx
          · exact hw x hx
        · trivial
    · trivial

include hf in
theorem accessStatement_fits (n : Nat) (t : Token) : (parseAccessStatementIn f n t).Returns (NodeFits d) := by
  unfold parseAccessStatementIn
  refine .skip fun v => .skip fun o => ?_
  cases o with
  | none => exact ⟨by simp [Node.parsedExprs], by simp [Node.blocks]⟩
  | some t =>
    dsimp only
    split
    · unfold VariableAssignment.parseIn
      refine .bind (P := fun n => n.expression.Fits d) ?_ fun n hn => .of (by simpa [Node.exprs] using hn)
        (by simp [Node.blocks])
      refine .skip fun o => ?_
      cases o with
      | none => trivial
      | some t =>
        dsimp only
        split
        · refine .skip fun o => ?_
          cases o with
          | none => trivial
          | some t => exact .bind (hf t) fun e he => he
        · trivial
    · unfold BukkitSetSlot.parseIn
      refine .bind (P := fun n => n.value.Fits d) ?_ fun n hn => .of (by simpa [Node.exprs] using hn)
        (by simp [Node.blocks])
      refine .skip fun o => ?_
      cases o with
      | none => trivial
      | some t =>
        dsimp only
        split
        · refine .skip fun o => ?_
          cases o with
          | none => trivial
          | some t =>
            refine .skip fun _ => .skip fun o => ?_
            cases o with
            | none => trivial
            | some t =>
              dsimp only
              split
              · refine .skip fun o => ?_
                cases o with
                | none => trivial
                | some t => exact .bind (hf t) fun e he => he
              · trivial
        · trivial
    · trivial

include hf hb in
theorem statementBody_fits (n : Nat) (t : Token) : (statementBody b f n t).Returns (NodeFits d) := by
  unfold statementBody
  split
  · exact accessStatement_fits hf n t
  split
  · exact .bind (iHasA_fits hf t) fun n hn => .of hn (by simp [Node.blocks])
  · refine .bind (P := fun n => ∀ e ∈ n.expressions, e.Fits d) ?_ fun n hn => .of hn (by simp [Node.blocks])
    exact .bind (expressions_fits hf n) fun l hl => .skip fun _ => hl
  · exact .skip fun n => .of (by simp [Node.exprs]) (by simp [Node.blocks])
  · refine .bind (P := fun n => n.expression.Fits d) ?_ fun n hn => .of (by simpa [Node.exprs] using hn)
      (by simp [Node.blocks])
    refine .skip fun o => ?_
    cases o with
    | none => trivial
    | some t => exact .bind (hf t) fun e he => he
  · exact .skip fun n => .of (by simp [Node.exprs]) (by simp [Node.blocks])
  · exact .of (by simp [Node.exprs]) (by simp [Node.blocks])
  · exact .of (by simp [Node.exprs]) (by simp [Node.blocks])
  · refine .bind (P := fun n => ∀ e ∈ n.arguments, e.Fits d) ?_ fun n hn => .of hn (by simp [Node.blocks])
    unfold IIz.parseIn
    refine .skip fun o => ?_
    cases o with
    | none => trivial
    | some t =>
      refine .skip fun _ => .bind (arguments_fits hf n) fun l hl => .skip fun o => ?_
      cases o with
      | none => trivial
      | some t =>
        dsimp only
        split
        · exact hl
        · trivial
  · exact imInYr_fits hf hb n t
  · exact howIzI_fits hb n t
  · exact wtf_fits hf hb n t
  · exact oRly_fits hf hb n t
  · exact .bind (hf t) fun e he => .of (by simpa [Node.exprs] using he) (by simp [Node.blocks])

end

theorem BlockFits.nodes {d : Nat} {b : Block} : BlockFits (d + 1) b ↔ ∀ node ∈ b, NodeFits d node := by
  constructor
  · intro h node hn
    cases h with
    | mk h h' => exact ⟨h node hn, h' node hn⟩
  · exact fun h => .mk (fun n hn => (h n hn).1) fun n hn => (h n hn).2

theorem NodeFits.error (d : Nat) (e : ASTError) : NodeFits d (.astError e) :=
  .of (by simp [Node.exprs]) (by simp [Node.blocks])

/-- The nodes that `parse_block` adds for the result of `parse_statement`. -/
def resultNodes : Except ASTError Node → Block
  | .ok node => [node]
  | .error e => [.astError e]

/-- The nodes that `parse_block` adds for the result of `next_statement_should_be_empty`. -/
def restNodes : Except ASTError Unit → Block
  | .ok _ => []
  | .error e => [.astError e]

/-- The end of a round of `parse_block`. -/
def roundEnd (more : Prog Block) (stop : Token → Bool) (nodes : Block) : Prog Block := do
  match ← peek with
  | none => pure nodes
  | some token => if stop token then pure nodes else do
      let more ← more
      pure (nodes ++ more)

/-- The statement of a round of `parse_block`. -/
def roundStatement (statement : Token → Prog Node) : Prog Block := do
  match ← next with
  | none => pure []
  | some token => (statement token).toResult >>= fun r => pure (resultNodes r)

theorem Prog.bind_assoc' {α β γ : Type} (p : Prog α) (f : α → Prog β) (g : β → Prog γ) :
    (p >>= f) >>= g = p >>= fun a => f a >>= g := by
  change (p.bind f).bind g = p.bind fun a => (f a).bind g
  induction p with
  | ret | err | panic | outOfFuel => rfl
  | next k ih => exact congrArg Prog.next (funext ih)
  | peek k ih => exact congrArg Prog.peek (funext ih)
  | nextStatement k ih => exact congrArg Prog.nextStatement (funext ih)

theorem blockRound_eq (st : Token → Prog Node) (more : Prog Block) (stop : Token → Bool) :
    blockRound st more stop = roundStatement st >>= fun nodes =>
      nextStatementShouldBeEmpty.toResult >>= fun r => roundEnd more stop (nodes ++ restNodes r) := by
  unfold blockRound roundStatement
  rw [Prog.bind_assoc']
  congr 1
  funext o
  have key : ∀ nodes : Block, (nextStatementShouldBeEmpty.toResult >>= fun r => match r with
      | .ok _ => (pure [] : Prog (List Node)) >>= fun errors => roundEnd more stop (nodes ++ errors)
      | .error e => (pure [Node.astError e] : Prog (List Node)) >>= fun errors => roundEnd more stop (nodes ++ errors)) =
      nextStatementShouldBeEmpty.toResult >>= fun r => roundEnd more stop (nodes ++ restNodes r) := by
    intro nodes
    congr 1
    funext r
    cases r <;> rfl
  cases o with
  | none => exact key []
  | some t =>
    dsimp only
    rw [Prog.bind_assoc']
    congr 1
    funext r
    cases r with
    | ok node => exact key [node]
    | error e => exact key [.astError e]

theorem blockRound_fits {d : Nat} {st : Token → Prog Node} {more : Prog Block} (stop : Token → Bool)
    (hs : ∀ t, (st t).Returns (NodeFits d)) (hm : more.Returns fun l => ∀ node ∈ l, NodeFits d node) :
    (blockRound st more stop).Returns fun l => ∀ node ∈ l, NodeFits d node := by
  rw [blockRound_eq]
  refine .bind (P := fun l => ∀ node ∈ l, NodeFits d node) ?_ fun l hl => .skip fun r => .skip fun o => ?_
  · refine .skip fun o => ?_
    cases o with
    | none => rintro _ ⟨⟩
    | some t =>
      refine .bind (hs t).toResult fun r hr => ?_
      cases r with
      | ok node => simpa [Prog.Returns, Pure.pure, resultNodes] using hr node rfl
      | error e => simpa [Prog.Returns, Pure.pure, resultNodes] using NodeFits.error d e
  · have h2 : ∀ node ∈ l ++ restNodes r, NodeFits d node := by
      refine List.forall_mem_append.2 ⟨hl, ?_⟩
      cases r with
      | ok => rintro _ ⟨⟩
      | error e => simpa [restNodes] using NodeFits.error d e
    cases o with
    | none => exact h2
    | some t =>
      dsimp only
      split
      · exact h2
      · exact .bind hm fun l'' h'' => List.forall_mem_append.2 ⟨h2, h''⟩

theorem parseExprIn_fits (n d : Nat) (t : Token) : (parseExprIn n d t).Returns (Expr.Fits d) := by
  induction d generalizing t with
  | zero => trivial
  | succ d ih => exact exprBody_fits ih n t

theorem parseBlockIn_fits (n d : Nat) (stop : Token → Bool) : (parseBlockIn n d stop).Returns (BlockFits d) := by
  induction d generalizing stop with
  | zero => trivial
  | succ d ih =>
    rw [parseBlockIn]
    refine .mono ?_ fun b => BlockFits.nodes.2
    have hs := statementBody_fits (parseExprIn_fits n d) ih n
    generalize statementBody (parseBlockIn n d) (parseExprIn n d) n = st at hs
    generalize n = m
    induction m with
    | zero => trivial
    | succ m ihm => exact blockRound_fits stop hs ihm

end Lol
