import Verif.Parser.StackUpTo
import Verif.Parser.StmtSpec

/-! # A stack as large as the tree is enough: lemmas -/

namespace Lol

/-- Whatever `p` returns that satisfies `D`, `q` returns too. -/
def Prog.Sim {α : Type} (D : α → Prop) (p q : Prog α) : Prop :=
  ∀ s a s', exec p s = .ok a s' → D a → exec q s = .ok a s'

namespace Prog

theorem Sim.refl {α : Type} {D : α → Prop} (p : Prog α) : Sim D p p := fun _ _ _ h _ => h

theorem Sim.mono {α : Type} {D D' : α → Prop} {p q : Prog α} (h : Sim D' p q) (hD : ∀ a, D a → D' a) : Sim D p q :=
  fun s a s' hp ha => h s a s' hp (hD a ha)

theorem Sim.outOfFuel {α : Type} {D : α → Prop} (q : Prog α) : Sim D .outOfFuel q := fun _ _ _ h _ => by cases h

theorem Sim.ofUpTo {α : Type} {D : α → Prop} {p q : Prog α} (h : ∀ k, LeUpTo k p p q) : Sim D p q := by
  intro s a s' hp _
  rw [(h _).exec s (Nat.le_refl _) (by rw [hp]; simp) (by rw [hp]; simp), hp]

theorem Sim.bind {α β : Type} {D' : α → Prop} {D : β → Prop} {p q : Prog α} {f g : α → Prog β} (h : Sim D' p q)
    (hf : ∀ a, Sim D (f a) (g a)) (hD : ∀ a, (f a).Returns fun b => D b → D' a) : Sim D (p >>= f) (q >>= g) := by
  intro s b s' hp hb
  rw [exec_bind] at hp
  cases hq : exec p s with
  | ok a s1 =>
    rw [hq] at hp
    have h1 := (hD a).run Stmts.ops hp hb
    rw [exec_bind, h s a s1 hq h1]
    exact hf a s1 b s' hp hb
  | _ => rw [hq] at hp; cases hp

theorem Sim.then {α β : Type} {D : β → Prop} {p : Prog α} {f g : α → Prog β} (hf : ∀ a, Sim D (f a) (g a)) :
    Sim D (p >>= f) (p >>= g) :=
  Sim.bind (D' := fun _ => True) (.refl p) hf fun a => (Returns.any (f a)).mono fun _ _ _ => trivial

theorem Sim.first {α β : Type} {D' : α → Prop} {D : β → Prop} {p q : Prog α} {f : α → Prog β} (h : Sim D' p q)
    (hD : ∀ a, (f a).Returns fun b => D b → D' a) : Sim D (p >>= f) (q >>= f) :=
  .bind h (fun _ => .refl _) hD

/-- If only what `p` can return matters. -/
theorem Sim.only {α : Type} {P D : α → Prop} {p q : Prog α} (hp : p.Returns P) (h : Sim (fun a => P a ∧ D a) p q) :
    Sim D p q := fun s a s' hr ha => h s a s' hr ⟨hp.run Stmts.ops hr, ha⟩

theorem Sim.toResult {α : Type} {D : α → Prop} {p q : Prog α} (h : Sim D p q) :
    Sim (fun r => ∃ a, r = .ok a ∧ D a) p.toResult q.toResult := by
  rintro s _ s' hp ⟨a, rfl, ha⟩
  rw [exec_toResult] at hp ⊢
  cases hq : exec p s with
  | ok b s1 =>
    rw [hq] at hp
    cases hp
    rw [h s a _ hq ha]
    rfl
  | _ => rw [hq] at hp; cases hp

end Prog

open Prog

theorem access_sim {D : VariableAccess → Prop} {n m : Nat} (h : n ≤ m) (t : Token) :
    Sim D (VariableAccess.parse n t) (VariableAccess.parse m t) := .ofUpTo fun _ => access_upTo (by omega) t

section

variable {d : Nat} {f g : Token → Prog Expr} (h : ∀ t, Sim (Expr.Fits d) (f t) (g t))

include h in
theorem binary_sim (o : BinaryOpt) : Sim (Expr.Fits (d + 1)) (parseBinary f o) (parseBinary g o) := by
  unfold parseBinary
  refine .then fun o => ?_
  cases o with
  | none => exact .refl _
  | some t =>
    refine .bind (h t) (fun e => .then fun _ => .then fun o => ?_) fun e => .skip fun _ => .skip fun o => ?_
    · cases o with
      | none => exact .refl _
      | some t => exact .first (h t) fun e' h' => by cases h'; assumption
    · cases o with
      | none => trivial
      | some t => exact .skip fun e' h' => by cases h'; assumption

include h in
theorem unary_sim (o : UnaryOpt) : Sim (Expr.Fits (d + 1)) (parseUnary f o) (parseUnary g o) := by
  unfold parseUnary
  refine .then fun o => ?_
  cases o with
  | none => exact .refl _
  | some t => exact .first (h t) fun e' h' => by cases h'; assumption

include h in
theorem operands_sim {n m : Nat} (hm : n ≤ m) :
    Sim (fun es => ∀ e an, .mk e an ∈ es → Expr.Fits d e) (parseOperands f n) (parseOperands g m) := by
  induction n generalizing m with
  | zero => exact .outOfFuel _
  | succ n ih =>
    obtain ⟨m, rfl⟩ : ∃ m', m = m' + 1 := ⟨m - 1, by omega⟩
    rw [parseOperands, parseOperands]
    refine .then fun o => ?_
    cases o with
    | none => exact .refl _
    | some t =>
      exact .bind (h t) (fun e => .then fun an => .first (ih (by omega)) fun es he e' an' h' =>
        he e' an' (List.mem_cons_of_mem _ h')) fun e => .skip fun an => .skip fun es he => he e _ List.mem_cons_self

include h in
theorem nary_sim {n m : Nat} (hm : n ≤ m) (o : NaryOpt) :
    Sim (Expr.Fits (d + 1)) (parseNary f n o) (parseNary g m o) :=
  .first (operands_sim h hm) fun es => .skip fun _ h' => by cases h'; assumption

include h in
theorem exprBody_sim {n m : Nat} (hm : n ≤ m) (t : Token) :
    Sim (Expr.Fits (d + 1)) (exprBody f n t) (exprBody g m t) := by
  have hb := binary_sim h
  have hu := unary_sim h
  have hn := nary_sim h hm
  unfold exprBody
  split <;> first
    | exact hb _
    | exact hu _
    | exact hn _
    | exact .first (D' := fun _ => True) (access_sim hm t) fun _ _ => trivial
    | exact .refl _

include h in
theorem iHasA_sim (t : Token) :
    Sim (fun n => ∀ e ∈ (Node.iHasA n).exprs, e.Fits d) (IHasA.parseIn f t) (IHasA.parseIn g t) := by
  unfold IHasA.parseIn
  refine .then fun o => ?_
  cases o with
  | none => exact .refl _
  | some t =>
    dsimp only
    split
    · refine .then fun i => .then fun o => ?_
      cases o with
      | none => exact .refl _
      | some a =>
        dsimp only
        split
        · refine .then fun o => ?_
          cases o with
          | none => exact .refl _
          | some v =>
            dsimp only
            cases ASTType.tryFrom v with
            | some ty => exact .refl _
            | none => exact .first (h v) fun e he => by simpa [Node.exprs] using he
        · exact .refl _
    · exact .refl _

include h in
theorem expressions_sim {n m : Nat} (hm : n ≤ m) : Sim (fun l => ∀ e ∈ l, e.Fits d)
    (Visible.parseExpressionsIn f n) (Visible.parseExpressionsIn g m) := by
  induction n generalizing m with
  | zero => exact .outOfFuel _
  | succ n ih =>
    obtain ⟨m, rfl⟩ : ∃ m', m = m' + 1 := ⟨m - 1, by omega⟩
    rw [Visible.parseExpressionsIn, Visible.parseExpressionsIn]
    refine .then fun o => ?_
    cases o with
    | none => exact .refl _
    | some t =>
      exact .bind (h t) (fun e => .first (ih (by omega)) fun es he => (List.forall_mem_cons.1 he).2)
        fun e => .skip fun es he => (List.forall_mem_cons.1 he).1

include h in
theorem arguments_sim {n m : Nat} (hm : n ≤ m) : Sim (fun l => ∀ e ∈ l, e.Fits d)
    (IIz.parseArgumentsIn f n) (IIz.parseArgumentsIn g m) := by
  induction n generalizing m with
  | zero => exact .outOfFuel _
  | succ n ih =>
    obtain ⟨m, rfl⟩ : ∃ m', m = m' + 1 := ⟨m - 1, by omega⟩
    rw [IIz.parseArgumentsIn, IIz.parseArgumentsIn]
    refine .then fun o => ?_
    cases o with
    | none => exact .refl _
    | some t =>
      refine .then fun o => ?_
      cases o with
      | none => exact .refl _
      | some t =>
        refine .bind (h t) (fun e => .then fun o => ?_) fun e => .skip fun o => ?_
        · cases o with
          | none => exact .refl _
          | some _ => exact .first (ih (by omega)) fun es he => (List.forall_mem_cons.1 he).2
        · cases o with
          | none => exact fun he => (List.forall_mem_cons.1 he).1
          | some _ => exact .skip fun es he => (List.forall_mem_cons.1 he).1

include h in
theorem foundYr_sim (t : Token) : Sim (fun n => n.expression.Fits d) (FoundYr.parseIn f t) (FoundYr.parseIn g t) := by
  unfold FoundYr.parseIn
  refine .then fun o => ?_
  cases o with
  | none => exact .refl _
  | some t => exact .first (h t) fun e he => he

include h in
theorem assignment_sim (v : VariableAccess) :
    Sim (fun n => n.expression.Fits d) (VariableAssignment.parseIn f v) (VariableAssignment.parseIn g v) := by
  unfold VariableAssignment.parseIn
  refine .then fun o => ?_
  cases o with
  | none => exact .refl _
  | some t =>
    dsimp only
    split
    · refine .then fun o => ?_
      cases o with
      | none => exact .refl _
      | some t => exact .first (h t) fun e he => he
    · exact .refl _

include h in
theorem setSlot_sim (v : VariableAccess) :
    Sim (fun n => n.value.Fits d) (BukkitSetSlot.parseIn f v) (BukkitSetSlot.parseIn g v) := by
  unfold BukkitSetSlot.parseIn
  refine .then fun o => ?_
  cases o with
  | none => exact .refl _
  | some t =>
    dsimp only
    split
    · refine .then fun o => ?_
      cases o with
      | none => exact .refl _
      | some t =>
        refine .then fun _ => .then fun o => ?_
        cases o with
        | none => exact .refl _
        | some t =>
          dsimp only
          split
          · refine .then fun o => ?_
            cases o with
            | none => exact .refl _
            | some t => exact .first (h t) fun e he => he
          · exact .refl _
    · exact .refl _

include h in
theorem iIz_sim {n m : Nat} (hm : n ≤ m) (t : Token) :
    Sim (fun n => ∀ e ∈ n.arguments, e.Fits d) (IIz.parseIn f n t) (IIz.parseIn g m t) := by
  unfold IIz.parseIn
  refine .then fun o => ?_
  cases o with
  | none => exact .refl _
  | some t =>
    refine .bind (D' := fun _ => True) (access_sim hm t) (fun v => .first (arguments_sim h hm) fun l => .skip fun o => ?_)
      fun v => .mono (.any _) fun _ _ _ => trivial
    cases o with
    | none => trivial
    | some t =>
      dsimp only
      split
      · exact fun h => h
      · trivial

include h in
theorem conditional_sim : Sim (fun c => ∀ e ∈ c.toList.map (fun | .til e => e | .wile e => e), Expr.Fits d e)
    (parseConditionalIn f) (parseConditionalIn g) := by
  unfold parseConditionalIn
  refine .then fun o => ?_
  cases o with
  | none => exact .refl _
  | some t =>
    refine .then fun o => ?_
    cases o with
    | none => exact .refl _
    | some t =>
      refine .first (h t) fun e => ?_
      split <;> exact fun h => by simpa using h

include h in
theorem accessStatement_sim {n m : Nat} (hm : n ≤ m) (t : Token) :
    Sim (NodeFits d) (parseAccessStatementIn f n t) (parseAccessStatementIn g m t) := by
  unfold parseAccessStatementIn
  refine .bind (D' := fun _ => True) (access_sim hm t) (fun v => .then fun o => ?_)
      fun v => .mono (.any _) fun _ _ _ => trivial
  cases o with
  | none => exact .refl _
  | some t =>
    dsimp only
    split
    · exact .first (assignment_sim h v) fun n hn => hn.1 _ (by simp [Node.parsedExprs, Node.exprs])
    · exact .first (setSlot_sim h v) fun n hn => hn.1 _ (by simp [Node.parsedExprs, Node.exprs])
    · exact .refl _

end

/-- No errors in the block, and it fits. -/
def GoodBlock (d : Nat) (b : Block) : Prop := errorFreeBlock b ∧ BlockFits d b

/-- No errors in the blocks of the node, and all that is in it fits. -/
def GoodNode (d : Nat) (node : Node) : Prop := 
  (∀ e ∈ node.parsedExprs, e.Fits d) ∧ ∀ b ∈ node.blocks, GoodBlock d b

theorem omgs_errorFree {l : List WtfOmg} (h : errorFreeOmgs l) :
    ∀ x ∈ l.map (fun | .mk _ _ b => b), errorFreeBlock x := by
  induction l with
  | nil => simp
  | cons o l ih =>
    obtain ⟨_, _, _⟩ := o
    rw [errorFreeOmgs] at h
    exact List.forall_mem_cons.2 ⟨h.1, ih h.2⟩

theorem mebbes_errorFree {l : List Mebbe} (h : errorFreeMebbes l) :
    ∀ x ∈ l.map (fun | .mk _ _ b => b), errorFreeBlock x := by
  induction l with
  | nil => simp
  | cons o l ih =>
    obtain ⟨_, _, _⟩ := o
    rw [errorFreeMebbes] at h
    exact List.forall_mem_cons.2 ⟨h.1, ih h.2⟩

theorem Node.ErrorFree.blocks {node : Node} (h : node.ErrorFree) : ∀ b ∈ node.blocks, errorFreeBlock b := by
  cases node with
  | imInYr _ _ _ _ b _ => rw [Node.ErrorFree] at h; simpa [Node.blocks] using h
  | howIzI _ _ _ b => rw [Node.ErrorFree] at h; simpa [Node.blocks] using h
  | wtf _ l o =>
    rw [Node.ErrorFree] at h
    refine List.forall_mem_append.2 ⟨omgs_errorFree h.1, ?_⟩
    rcases o with _ | ⟨_, _⟩
    · simp
    · simpa [errorFreeOmgWtf] using h.2
  | oRly _ y n l =>
    rw [Node.ErrorFree] at h
    refine List.forall_mem_append.2 ⟨?_, List.forall_mem_append.2 ⟨mebbes_errorFree h.2.1, ?_⟩⟩
    · rcases y with _ | ⟨_, _⟩
      · simp
      · simpa [errorFreeYaRly] using h.1
    · rcases n with _ | ⟨_, _⟩
      · simp
      · simpa [errorFreeNoWai] using h.2.2
  | _ => simp [Node.blocks]

section

variable {d : Nat} {f g : Token → Prog Expr} {b b' : (Token → Bool) → Prog Block}
  (h : ∀ t, Sim (Expr.Fits d) (f t) (g t)) (hb : ∀ stop, Sim (GoodBlock d) (b stop) (b' stop))

include h hb in
theorem imInYr_sim {n m : Nat} (hm : n ≤ m) (t : Token) :
    Sim (GoodNode d) (parseImInYrIn b f n t) (parseImInYrIn b' g m t) := by
  unfold parseImInYrIn
  refine .then fun o => ?_
  cases o with
  | none => exact .refl _
  | some t =>
    dsimp only
    split
    · refine .bind (D' := fun _ => True) (.ofUpTo fun _ => iteration_upTo (by omega)) (fun it =>
        .bind (conditional_sim h) (fun c => .then fun _ => .first (hb _) fun bl => .skip fun o => ?_)
          fun c => .skip fun _ => .skip fun bl => .skip fun o => ?_) fun it => .mono (.any _) fun _ _ _ => trivial
      · cases o with
        | none => trivial
        | some t =>
          refine .skip fun o => ?_
          cases o with
          | none => trivial
          | some t =>
            dsimp only
            split
            · exact fun h => h.2 _ (by simp [Node.blocks])
            · trivial
      · cases o with
        | none => trivial
        | some t =>
          refine .skip fun o => ?_
          cases o with
          | none => trivial
          | some t =>
            dsimp only
            split
            · exact fun h => h.1
            · trivial
    · exact .refl _

include hb in
theorem howIzI_sim {n m : Nat} (hm : n ≤ m) (t : Token) :
    Sim (GoodNode d) (parseHowIzI b n t) (parseHowIzI b' m t) := by
  unfold parseHowIzI
  refine .then fun o => ?_
  cases o with
  | none => exact .refl _
  | some t =>
    refine .then fun _ => .bind (D' := fun _ => True) (.ofUpTo fun _ => parameters_upTo (by omega)) (fun _ =>
      .then fun _ => .first (hb _) fun bl => .skip fun o => ?_) fun it => .mono (.any _) fun _ _ _ => trivial
    cases o with
    | none => trivial
    | some t =>
      dsimp only
      split
      · exact .skip fun _ h => h.2 _ (by simp [Node.blocks])
      · trivial

include h hb in
theorem omgs_sim {n m : Nat} (hm : n ≤ m) : Sim (fun l => (∀ e ∈ l.map (fun | .mk _ e _ => e), Expr.Fits d e) ∧
    ∀ x ∈ l.map (fun | .mk _ _ b => b), GoodBlock d x) (parseOmgsIn b f n) (parseOmgsIn b' g m) := by
  induction n generalizing m with
  | zero => exact .outOfFuel _
  | succ n ih =>
    obtain ⟨m, rfl⟩ : ∃ m', m = m' + 1 := ⟨m - 1, by omega⟩
    rw [parseOmgsIn, parseOmgsIn]
    refine .then fun o => ?_
    cases o with
    | none => exact .refl _
    | some t =>
      refine .then fun o => ?_
      cases o with
      | none => exact .refl _
      | some t =>
        exact .bind (h t) (fun e => .then fun _ => .bind (hb _) (fun bl => .first (ih (by omega)) fun l hl =>
            ⟨(List.forall_mem_cons.1 hl.1).2, (List.forall_mem_cons.1 hl.2).2⟩)
          fun bl => .skip fun l hl => (List.forall_mem_cons.1 hl.2).1)
          fun e => .skip fun _ => .skip fun _ => .skip fun l hl => (List.forall_mem_cons.1 hl.1).1

include h hb in
theorem mebbes_sim {n m : Nat} (hm : n ≤ m) : Sim (fun l => (∀ e ∈ l.map (fun | .mk _ e _ => e), Expr.Fits d e) ∧
    ∀ x ∈ l.map (fun | .mk _ _ b => b), GoodBlock d x) (parseMebbesIn b f n) (parseMebbesIn b' g m) := by
  induction n generalizing m with
  | zero => exact .outOfFuel _
  | succ n ih =>
    obtain ⟨m, rfl⟩ : ∃ m', m = m' + 1 := ⟨m - 1, by omega⟩
    rw [parseMebbesIn, parseMebbesIn]
    refine .then fun o => ?_
    cases o with
    | none => exact .refl _
    | some t =>
      refine .then fun o => ?_
      cases o with
      | none => exact .refl _
      | some t =>
        exact .bind (h t) (fun e => .then fun _ => .bind (hb _) (fun bl => .first (ih (by omega)) fun l hl =>
            ⟨(List.forall_mem_cons.1 hl.1).2, (List.forall_mem_cons.1 hl.2).2⟩)
          fun bl => .skip fun l hl => (List.forall_mem_cons.1 hl.2).1)
          fun e => .skip fun _ => .skip fun _ => .skip fun l hl => (List.forall_mem_cons.1 hl.1).1

include hb in
theorem omgWtf_sim : Sim (fun o => ∀ x ∈ o.toList.map (fun | .mk _ b => b), GoodBlock d x)
    (parseOmgWtf b) (parseOmgWtf b') := by
  unfold parseOmgWtf
  refine .then fun o => ?_
  cases o with
  | none => exact .refl _
  | some t => exact .then fun _ => .first (hb _) fun bl h => h _ (by simp)

include hb in
theorem yaRly_sim : Sim (fun o => ∀ x ∈ o.toList.map (fun | .mk _ b => b), GoodBlock d x)
    (parseYaRly b) (parseYaRly b') := by
  unfold parseYaRly
  refine .then fun o => ?_
  cases o with
  | none => exact .refl _
  | some t => exact .then fun _ => .first (hb _) fun bl h => h _ (by simp)

include hb in
theorem noWai_sim : Sim (fun o => ∀ x ∈ o.toList.map (fun | .mk _ b => b), GoodBlock d x)
    (parseNoWai b) (parseNoWai b') := by
  unfold parseNoWai
  refine .then fun o => ?_
  cases o with
  | none => exact .refl _
  | some t => exact .then fun _ => .first (hb _) fun bl h => h _ (by simp)

include h hb in
theorem wtf_sim {n m : Nat} (hm : n ≤ m) (t : Token) : Sim (GoodNode d) (parseWtfIn b f n t) (parseWtfIn b' g m t) := by
  unfold parseWtfIn
  refine .then fun o => ?_
  cases o with
  | none => exact .refl _
  | some t =>
    dsimp only
    split
    · refine .then fun _ => .bind (omgs_sim h hb hm) (fun l => .first (omgWtf_sim hb) fun w => .skip fun o => ?_)
        fun l => .skip fun w => .skip fun o => ?_
      all_goals
        cases o with
        | none => trivial
        | some t =>
          dsimp only
          split
          · first
            | exact .skip fun _ h => ⟨h.1, fun x hx => h.2 x (List.mem_append_left _ hx)⟩
            | exact .skip fun _ h x hx => h.2 x (List.mem_append_right _ hx)
          · trivial
    · exact .refl _

include h hb in
theorem oRly_sim {n m : Nat} (hm : n ≤ m) (t : Token) :
    Sim (GoodNode d) (parseORlyIn b f n t) (parseORlyIn b' g m t) := by
  unfold parseORlyIn
  refine .then fun o => ?_
  cases o with
  | none => exact .refl _
  | some t =>
    dsimp only
    split
    · refine .then fun _ => .bind (yaRly_sim hb) (fun y => .bind (mebbes_sim h hb hm) (fun l =>
          .first (noWai_sim hb) fun w => .skip fun o => ?_)
        fun l => .skip fun w => .skip fun o => ?_) fun y => .skip fun l => .skip fun w => .skip fun o => ?_
      all_goals
        cases o with
        | none => trivial
        | some t =>
          dsimp only
          split
          · first
            | exact fun h => ⟨h.1, fun x hx => h.2 x (List.mem_append_right _ (List.mem_append_left _ hx))⟩
            | exact fun h x hx => h.2 x (List.mem_append_right _ (List.mem_append_right _ hx))
            | exact fun h x hx => h.2 x (List.mem_append_left _ hx)
          · trivial
    · exact .refl _

end

theorem Node.parsedExprs_eq {node : Node} (h : ∀ v, node ≠ .expression (.value (.variableAccess v))) :
    node.parsedExprs = node.exprs := by
  unfold Node.parsedExprs
  split
  · exact absurd rfl (h _)
  · rfl

theorem exprBody_value {f : Token → Prog Expr} {n : Nat} {t : Token} (ht : VariableAccess.isValid t = false) :
    (exprBody f n t).Returns fun e => ∀ v, e ≠ .value (.variableAccess v) := by
  have hb : ∀ o, (parseBinary f o).Returns fun e => ∀ v, e ≠ .value (.variableAccess v) := by
    intro o
    unfold parseBinary
    refine .skip fun o => ?_
    cases o with
    | none => trivial
    | some t =>
      refine .skip fun _ => .skip fun _ => .skip fun o => ?_
      cases o with
      | none => trivial
      | some t => exact .skip fun _ => by simp [Prog.Returns, Pure.pure]
  have hu : ∀ o, (parseUnary f o).Returns fun e => ∀ v, e ≠ .value (.variableAccess v) := by
    intro o
    unfold parseUnary
    refine .skip fun o => ?_
    cases o with
    | none => trivial
    | some t => exact .skip fun _ => by simp [Prog.Returns, Pure.pure]
  have hn : ∀ o, (parseNary f n o).Returns fun e => ∀ v, e ≠ .value (.variableAccess v) := fun o =>
    .skip fun _ => .skip fun _ => by simp [Prog.Returns, Pure.pure]
  unfold exprBody
  split <;> first
    | exact hb _
    | exact hu _
    | exact hn _
    | trivial
    | simp [Prog.Returns, Pure.pure]; done
    | (simp_all [VariableAccess.isValid]; done)

/-- No errors in the node, and it fits. -/
def FineNode (d : Nat) (node : Node) : Prop := node.ErrorFree ∧ NodeFits d node

theorem FineNode.good {d : Nat} {node : Node} (h : FineNode d node) : GoodNode d node :=
  ⟨h.2.1, fun b hb => ⟨h.1.blocks b hb, h.2.2 b hb⟩⟩

theorem statementBody_sim {d : Nat} {f g : Token → Prog Expr} {b b' : (Token → Bool) → Prog Block}
    (h : ∀ t, Sim (Expr.Fits d) (f t) (g t)) (hb : ∀ stop, Sim (GoodBlock d) (b stop) (b' stop))
    (hv : ∀ t, VariableAccess.isValid t = false → (f t).Returns fun e => ∀ v, e ≠ .value (.variableAccess v))
    {n m : Nat} (hm : n ≤ m) (t : Token) : Sim (FineNode d) (statementBody b f n t) (statementBody b' g m t) := by
  unfold statementBody
  split
  · exact (accessStatement_sim h hm t).mono fun _ hn => hn.2
  rename_i hval
  split
  · exact .first (iHasA_sim h t) fun n hn => hn.good.1
  · refine .first (D' := fun n => ∀ e ∈ n.expressions, e.Fits d) ?_ fun n hn => hn.good.1
    exact .first (expressions_sim h hm) fun l => .skip fun _ hl => hl
  · exact .first (D' := fun _ => True) (.ofUpTo fun _ => gimmeh_upTo (by omega) t) fun _ _ => trivial
  · exact .first (foundYr_sim h t) fun n hn => hn.good.1 _ (by simp [Node.parsedExprs, Node.exprs])
  · exact .refl _
  · exact .refl _
  · exact .refl _
  · exact .first (iIz_sim h hm t) fun n hn => hn.good.1
  · exact (imInYr_sim h hb hm t).mono fun _ hn => hn.good
  · exact (howIzI_sim hb hm t).mono fun _ hn => hn.good
  · exact (wtf_sim h hb hm t).mono fun _ hn => hn.good
  · exact (oRly_sim h hb hm t).mono fun _ hn => hn.good
  · refine .first (D' := fun e => (∀ v, e ≠ .value (.variableAccess v)) → e.Fits d)
      (.only (hv t (by simpa using hval)) ((h t).mono fun e he => he.2 he.1)) fun e hn hv' => ?_
    have := hn.good.1
    rw [Node.parsedExprs_eq (by simpa using hv')] at this
    exact this _ (by simp [Node.exprs])

theorem errorFreeBlock_mem {b : Block} : errorFreeBlock b ↔ ∀ node ∈ b, node.ErrorFree := by
  induction b with
  | nil => simp [errorFreeBlock]
  | cons n b ih => simp [errorFreeBlock, ih]

theorem blockRound_sim {d : Nat} {st st' : Token → Prog Node} {more more' : Prog Block} (stop : Token → Bool)
    (hs : ∀ t, Sim (FineNode d) (st t) (st' t)) (hm : Sim (fun l => ∀ node ∈ l, FineNode d node) more more') :
    Sim (fun l => ∀ node ∈ l, FineNode d node) (blockRound st more stop) (blockRound st' more' stop) := by
  rw [blockRound_eq, blockRound_eq]
  refine .bind (D' := fun l => ∀ node ∈ l, FineNode d node) ?_ (fun l => .then fun r => .then fun o => ?_)
    fun l => .skip fun r => .skip fun o => ?_
  · refine .then fun o => ?_
    cases o with
    | none => exact .refl _
    | some t =>
      refine .first (hs t).toResult fun r => ?_
      cases r with
      | ok node => exact fun h => ⟨node, rfl, h node (by simp [resultNodes])⟩
      | error e =>
        exact fun h => absurd (h (.astError e) (by simp [resultNodes])).1 (by simp [Node.ErrorFree])
  · cases o with
    | none => exact .refl _
    | some t =>
      dsimp only
      split
      · exact .refl _
      · exact .first hm fun l' h node hn => h node (List.mem_append_right _ hn)
  · have h2 : (∀ node ∈ l ++ restNodes r, FineNode d node) → ∀ node ∈ l, FineNode d node := fun h node hn =>
      h node (List.mem_append_left _ hn)
    cases o with
    | none => exact h2
    | some t =>
      dsimp only
      split
      · exact h2
      · exact .skip fun l' h => h2 fun node hn => h node (List.mem_append_left _ hn)

theorem parseExpr_sim {d n m : Nat} (h : n ≤ m) (t : Token) :
    Sim (Expr.Fits d) (parseExpr n t) (parseExprIn m d t) := by
  induction d generalizing n t with
  | zero => exact fun _ _ _ _ h => by cases h
  | succ d ih =>
    cases n with
    | zero => exact .outOfFuel _
    | succ n =>
      rw [parseExpr_eq, parseExprIn]
      exact exprBody_sim (fun t => ih (by omega) t) (by omega) t

theorem parseBlock_sim {d n m : Nat} (h : n ≤ m) (stop : Token → Bool) :
    Sim (GoodBlock d) (parseBlock n stop) (parseBlockIn m d stop) := by
  induction d generalizing n stop with
  | zero => exact fun _ _ _ _ h => by cases h.2
  | succ d ih =>
    have hv : ∀ n t, VariableAccess.isValid t = false →
        (parseExpr n t).Returns fun e => ∀ v, e ≠ .value (.variableAccess v) := by
      intro n t ht
      cases n with
      | zero => trivial
      | succ n => rw [parseExpr_eq]; exact exprBody_value ht
    refine .mono (D' := fun l => ∀ node ∈ l, FineNode d node) ?_ fun b hb node hn =>
      ⟨errorFreeBlock_mem.1 hb.1 node hn, BlockFits.nodes.1 hb.2 node hn⟩
    rw [parseBlockIn]
    generalize hst : statementBody (parseBlockIn m d) (parseExprIn m d) m = st
    suffices ∀ l, n ≤ l → l ≤ m → Sim (fun l => ∀ node ∈ l, FineNode d node) (parseBlock n stop)
        (blockLoop st l stop) from this m h (Nat.le_refl _)
    induction n with
    | zero => exact fun _ _ _ => .outOfFuel _
    | succ n ihn =>
      intro l hnl hlm
      obtain ⟨l, rfl⟩ : ∃ l', l = l' + 1 := ⟨l - 1, by omega⟩
      rw [parseBlock_eq, blockLoop]
      refine blockRound_sim stop (fun t => ?_) (ihn (by omega) l (by omega) (by omega))
      rw [← hst]
      exact statementBody_sim (fun t => parseExpr_sim (by omega) t) (fun stop => ih (by omega) stop) (hv n) (by omega) t

end Lol
