import Verif.Parser.StackLemmas

/-! # Parsers that agree on few enough operators and blocks -/

namespace Lol

/-- 1 for a token after which the parser calls itself. -/
def Token.deep (t : Token) : Nat := deepTokens [t]

theorem deepTokens_cons (t : Token) (l : List Token) : deepTokens (t :: l) = t.deep + deepTokens l := by
  unfold Token.deep deepTokens
  rw [List.countP_cons, List.countP_cons, List.countP_nil]
  omega

theorem deepTokens_append (l l' : List Token) : deepTokens (l ++ l') = deepTokens l + deepTokens l' :=
  List.countP_append

theorem Token.deep_keyword {t : Token} {k : Keyword} (h : t.tokenType = .keyword k) (hk : k ∈ deepKeywords) :
    t.deep = 1 := by
  unfold Token.deep deepTokens
  rw [List.countP_cons, h, if_pos]
  · rfl
  · exact decide_eq_true (List.mem_map_of_mem hk)

/-- `r` behaves as `p` and `q` wherever neither of them runs out of fuel, as long as at most `k` of the tokens that are
read are `deepTokens`. -/
inductive Prog.LeUpTo {α : Type} : Nat → Prog α → Prog α → Prog α → Prop
  | left {k : Nat} (q r : Prog α) : LeUpTo k .outOfFuel q r
  | right {k : Nat} (p r : Prog α) : LeUpTo k p .outOfFuel r
  | ret {k : Nat} (a : α) : LeUpTo k (.ret a) (.ret a) (.ret a)
  | err {k : Nat} (e : ASTError) : LeUpTo k (.err e) (.err e) (.err e)
  | panic {k : Nat} (s : PanicSite) : LeUpTo k (.panic s) (.panic s) (.panic s)
  | next {k : Nat} {f g h : Option Token → Prog α} : LeUpTo k (f none) (g none) (h none) →
      (∀ t j, j + t.deep ≤ k → LeUpTo j (f (some t)) (g (some t)) (h (some t))) →
      LeUpTo k (.next f) (.next g) (.next h)
  | peek {k : Nat} {f g h : Option Token → Prog α} : (∀ t, LeUpTo k (f t) (g t) (h t)) →
      LeUpTo k (.peek f) (.peek g) (.peek h)
  | nextStatement {k : Nat} {f g h : List Token → Prog α} : (∀ t, LeUpTo k (f t) (g t) (h t)) →
      LeUpTo k (.nextStatement f) (.nextStatement g) (.nextStatement h)

namespace Prog

theorem LeUpTo.refl {α : Type} {k : Nat} (p : Prog α) : LeUpTo k p p p := by
  induction p generalizing k with
  | ret a => exact .ret a
  | err e => exact .err e
  | panic s => exact .panic s
  | outOfFuel => exact .left _ _
  | next k ih => exact .next (ih _) fun t j _ => ih _
  | peek k ih => exact .peek fun _ => ih _
  | nextStatement k ih => exact .nextStatement fun _ => ih _

theorem LeUpTo.mono {α : Type} {j k : Nat} {p q r : Prog α} (h : LeUpTo k p q r) (hj : j ≤ k) : LeUpTo j p q r := by
  induction h generalizing j with
  | left => exact .left _ _
  | right => exact .right _ _
  | ret a => exact .ret a
  | err e => exact .err e
  | panic s => exact .panic s
  | next _ h ih _ => exact .next (ih hj) fun t i hi => h t i (by omega)
  | peek _ ih => exact .peek fun t => ih t hj
  | nextStatement _ ih => exact .nextStatement fun t => ih t hj

theorem LeUpTo.bind {α β : Type} {k : Nat} {p q r : Prog α} {f g h : α → Prog β} (hp : LeUpTo k p q r)
    (hf : ∀ a, LeUpTo k (f a) (g a) (h a)) : LeUpTo k (p >>= f) (q >>= g) (r >>= h) := by
  change LeUpTo k (p.bind f) (q.bind g) (r.bind h)
  induction hp with
  | left => exact .left _ _
  | right => exact .right _ _
  | ret a => exact hf a
  | err e => exact .err e
  | panic s => exact .panic s
  | next _ _ ih ih' => exact .next (ih hf) fun t j hj => ih' t j hj fun a => (hf a).mono (by omega)
  | peek _ ih => exact .peek fun t => ih t hf
  | nextStatement _ ih => exact .nextStatement fun t => ih t hf

theorem LeUpTo.then {α β : Type} {k : Nat} {p : Prog α} {f g h : α → Prog β}
    (hf : ∀ a, LeUpTo k (f a) (g a) (h a)) : LeUpTo k (p >>= f) (p >>= g) (p >>= h) := .bind (.refl p) hf

theorem LeUpTo.first {α β : Type} {k : Nat} {p q r : Prog α} {f : α → Prog β} (h : LeUpTo k p q r) :
    LeUpTo k (p >>= f) (q >>= f) (r >>= f) := .bind h fun _ => .refl _

theorem LeUpTo.toResult {α : Type} {k : Nat} {p q r : Prog α} (h : LeUpTo k p q r) :
    LeUpTo k p.toResult q.toResult r.toResult := by
  induction h with
  | left => exact .left _ _
  | right => exact .right _ _
  | ret a => exact .ret _
  | err e => exact .ret _
  | panic s => exact .panic s
  | next _ _ ih ih' => exact .next ih ih'
  | peek _ ih => exact .peek ih
  | nextStatement _ ih => exact .nextStatement ih

theorem LeUpTo.onNext {β : Type} {k : Nat} {f g h : Option Token → Prog β} (h1 : LeUpTo k (f none) (g none) (h none))
    (h2 : ∀ t j, j + t.deep ≤ k → LeUpTo j (f (some t)) (g (some t)) (h (some t))) :
    LeUpTo k (Lol.next >>= f) (Lol.next >>= g) (Lol.next >>= h) := .next h1 h2

theorem LeUpTo.onNextIf {β : Type} {k : Nat} {c : Token → Bool} {f g h : Option Token → Prog β}
    (h1 : LeUpTo k (f none) (g none) (h none))
    (h2 : ∀ t j, j + t.deep ≤ k → LeUpTo j (f (some t)) (g (some t)) (h (some t))) :
    LeUpTo k (nextIf c >>= f) (nextIf c >>= g) (nextIf c >>= h) := by
  unfold nextIf
  rw [bind_assoc', bind_assoc', bind_assoc']
  refine .then fun o => ?_
  cases o with
  | none => exact h1
  | some t =>
    dsimp only
    split
    · exact .onNext h1 h2
    · exact h1

theorem LeUpTo.onNextIfTokenTypeEq {β : Type} {k : Nat} {c : TokenType} {f g h : Option Token → Prog β}
    (h1 : LeUpTo k (f none) (g none) (h none))
    (h2 : ∀ t j, j + t.deep ≤ k → LeUpTo j (f (some t)) (g (some t)) (h (some t))) :
    LeUpTo k (nextIfTokenTypeEq c >>= f) (nextIfTokenTypeEq c >>= g) (nextIfTokenTypeEq c >>= h) := by
  unfold nextIfTokenTypeEq
  rw [bind_assoc', bind_assoc', bind_assoc']
  refine .then fun o => ?_
  cases o with
  | none => exact h1
  | some t =>
    dsimp only
    split
    · exact .onNext h1 h2
    · exact h1

theorem LeUpTo.onNextIfTokenTypeNe {β : Type} {k : Nat} {c : TokenType} {f g h : Option Token → Prog β}
    (h1 : LeUpTo k (f none) (g none) (h none))
    (h2 : ∀ t j, j + t.deep ≤ k → LeUpTo j (f (some t)) (g (some t)) (h (some t))) :
    LeUpTo k (nextIfTokenTypeNe c >>= f) (nextIfTokenTypeNe c >>= g) (nextIfTokenTypeNe c >>= h) := by
  unfold nextIfTokenTypeNe
  rw [bind_assoc', bind_assoc', bind_assoc']
  refine .then fun o => ?_
  cases o with
  | none => exact h1
  | some t =>
    dsimp only
    split
    · exact .onNext h1 h2
    · exact h1

theorem LeUpTo.exec {α : Type} {k : Nat} {p q r : Prog α} (h : LeUpTo k p q r) (s : Stmts)
    (hs : deepTokens s.tokens ≤ k) (hp : exec p s ≠ .outOfFuel) (hq : exec q s ≠ .outOfFuel) :
    exec r s = exec p s := by
  unfold Lol.exec at *
  induction h generalizing s with
  | left => exact absurd rfl hp
  | right => exact absurd rfl hq
  | ret | err | panic => rfl
  | next _ _ ih ih' =>
    rcases s with ⟨_ | ⟨t, cur⟩, later⟩
    · exact ih _ hs hp hq
    · refine ih' t (deepTokens (Stmts.tokens ⟨cur, later⟩)) ?_ ⟨cur, later⟩ (Nat.le_refl _) hp hq
      have : (Stmts.tokens ⟨t :: cur, later⟩) = t :: Stmts.tokens ⟨cur, later⟩ := rfl
      rw [this, deepTokens_cons] at hs
      omega
  | peek _ ih => exact ih _ _ hs hp hq
  | nextStatement _ ih =>
    refine ih _ _ ?_ hp hq
    rcases s with ⟨cur, _ | ⟨l, later⟩⟩
    · exact Nat.zero_le _
    · refine Nat.le_trans ?_ hs
      have : (Stmts.tokens ⟨cur, l :: later⟩) = cur ++ Stmts.tokens ⟨l, later⟩ := by simp [Stmts.tokens]
      rw [this, deepTokens_append]
      exact Nat.le_add_left _ _

end Prog

open Prog

/-- The parsers of the slots. -/
theorem slots_upTo {k n n' m : Nat} (hm : min n n' ≤ m) :
    LeUpTo k (VariableAccess.parseSlots n) (VariableAccess.parseSlots n') (VariableAccess.parseSlots m) := by
  induction n generalizing k n' m with
  | zero => exact .left _ _
  | succ n ih =>
    cases n' with
    | zero => exact .right _ _
    | succ n' =>
    obtain ⟨m, rfl⟩ : ∃ m', m = m' + 1 := ⟨m - 1, by omega⟩
    rw [VariableAccess.parseSlots, VariableAccess.parseSlots, VariableAccess.parseSlots]
    refine .then fun o => ?_
    cases o with
    | none => exact .refl _
    | some t =>
      refine .then fun o => ?_
      cases o with
      | none => exact .refl _
      | some t => exact .then fun i => .first (ih (by omega))

theorem access_upTo {k n n' m : Nat} (h : min n n' ≤ m) (t : Token) :
    LeUpTo k (VariableAccess.parse n t) (VariableAccess.parse n' t) (VariableAccess.parse m t) :=
  .then fun _ => .first (slots_upTo h)

theorem gimmeh_upTo {k n n' m : Nat} (h : min n n' ≤ m) (t : Token) :
    LeUpTo k (Gimmeh.parse n t) (Gimmeh.parse n' t) (Gimmeh.parse m t) := by
  unfold Gimmeh.parse
  refine .then fun o => ?_
  cases o with
  | none => exact .refl _
  | some t => exact .first (access_upTo h t)

theorem iteration_upTo {k n n' m : Nat} (h : min n n' ≤ m) :
    LeUpTo k (parseIterationOperation n) (parseIterationOperation n') (parseIterationOperation m) := by
  unfold parseIterationOperation
  refine .then fun o => ?_
  cases o with
  | none => exact .refl _
  | some t =>
    refine .then fun o => ?_
    cases o with
    | none => exact .refl _
    | some t =>
      dsimp only
      split
      · refine .then fun o => ?_
        cases o with
        | none => exact .refl _
        | some t => exact .first (access_upTo h t)
      · exact .refl _

theorem parameters_upTo {k n n' m : Nat} (hm : min n n' ≤ m) :
    LeUpTo k (parseParameters n) (parseParameters n') (parseParameters m) := by
  induction n generalizing k n' m with
  | zero => exact .left _ _
  | succ n ih =>
    cases n' with
    | zero => exact .right _ _
    | succ n' =>
    obtain ⟨m, rfl⟩ : ∃ m', m = m' + 1 := ⟨m - 1, by omega⟩
    rw [parseParameters, parseParameters, parseParameters]
    refine .then fun o => ?_
    cases o with
    | none => exact .refl _
    | some t =>
      refine .then fun o => ?_
      cases o with
      | none => exact .refl _
      | some t =>
        refine .then fun i => .then fun o => ?_
        cases o with
        | none => exact .refl _
        | some t =>
          dsimp only
          split
          · exact .then fun _ => .first (ih (by omega))
          · exact .refl _

/-- The two parsers of expressions agree if the first token and the rest have at most `k` deep tokens. -/
def ExprUpTo (k : Nat) (f f' g : Token → Prog Expr) : Prop := ∀ t j, j + t.deep ≤ k → LeUpTo j (f t) (f' t) (g t)

theorem ExprUpTo.mono {j k : Nat} {f f' g : Token → Prog Expr} (h : ExprUpTo k f f' g) (hj : j ≤ k) : ExprUpTo j f f' g :=
  fun t i hi => h t i (by omega)

section

variable {k : Nat} {f f' g : Token → Prog Expr} (h : ExprUpTo k f f' g)

include h in
theorem binary_upTo (o : BinaryOpt) : LeUpTo k (parseBinary f o) (parseBinary f' o) (parseBinary g o) :=
  .onNext (.refl _) fun t j hj => .bind (h t j hj) fun _ => .then fun _ => .onNext (.refl _) fun t i hi =>
    .first (h t i (by omega))

include h in
theorem unary_upTo (o : UnaryOpt) : LeUpTo k (parseUnary f o) (parseUnary f' o) (parseUnary g o) :=
  .onNext (.refl _) fun t j hj => .first (h t j hj)

theorem operands_upTo {k : Nat} (h : ExprUpTo k f f' g) {n n' m : Nat} (hm : min n n' ≤ m) :
    LeUpTo k (parseOperands f n) (parseOperands f' n') (parseOperands g m) := by
  induction n generalizing k n' m with
  | zero => exact .left _ _
  | succ n ih =>
    cases n' with
    | zero => exact .right _ _
    | succ n' =>
    obtain ⟨m, rfl⟩ : ∃ m', m = m' + 1 := ⟨m - 1, by omega⟩
    rw [parseOperands, parseOperands]
    exact .onNextIfTokenTypeNe (.refl _) fun t j hj => .bind (h t j hj) fun _ => .then fun _ =>
      .first (ih (h.mono (by omega)) (by omega))

include h in
theorem nary_upTo {n n' m : Nat} (hm : min n n' ≤ m) (o : NaryOpt) : LeUpTo k (parseNary f n o) (parseNary f' n' o) (parseNary g m o) :=
  .first (operands_upTo h hm)

theorem exprBody_upTo {n n' m : Nat} (hm : min n n' ≤ m) {t : Token} (h : t.deep = 1 → ExprUpTo k f f' g) :
    LeUpTo k (exprBody f n t) (exprBody f' n' t) (exprBody g m t) := by
  unfold exprBody
  split <;> first
    | exact .first (access_upTo hm t)
    | exact .refl _
    | exact binary_upTo (h (Token.deep_keyword (by assumption) (by decide))) _
    | exact unary_upTo (h (Token.deep_keyword (by assumption) (by decide))) _
    | exact nary_upTo (h (Token.deep_keyword (by assumption) (by decide))) hm _

include h in
theorem iHasA_upTo (t : Token) : LeUpTo k (IHasA.parseIn f t) (IHasA.parseIn f' t) (IHasA.parseIn g t) := by
  unfold IHasA.parseIn
  refine .onNext (.refl _) fun t j hj => ?_
  dsimp only
  split
  · refine .then fun _ => .onNext (.refl _) fun t i hi => ?_
    dsimp only
    split
    · refine .onNext (.refl _) fun t l hl => ?_
      dsimp only
      split
      · exact .refl _
      · exact .first (h t l (by omega))
    · exact .refl _
  · exact .refl _

theorem expressions_upTo {k : Nat} (h : ExprUpTo k f f' g) {n n' m : Nat} (hm : min n n' ≤ m) :
    LeUpTo k (Visible.parseExpressionsIn f n) (Visible.parseExpressionsIn f' n') (Visible.parseExpressionsIn g m) := by
  induction n generalizing k n' m with
  | zero => exact .left _ _
  | succ n ih =>
    cases n' with
    | zero => exact .right _ _
    | succ n' =>
    obtain ⟨m, rfl⟩ : ∃ m', m = m' + 1 := ⟨m - 1, by omega⟩
    rw [Visible.parseExpressionsIn, Visible.parseExpressionsIn]
    exact .onNextIfTokenTypeNe (.refl _) fun t j hj => .bind (h t j hj) fun _ =>
      .first (ih (h.mono (by omega)) (by omega))

theorem arguments_upTo {k : Nat} (h : ExprUpTo k f f' g) {n n' m : Nat} (hm : min n n' ≤ m) :
    LeUpTo k (IIz.parseArgumentsIn f n) (IIz.parseArgumentsIn f' n') (IIz.parseArgumentsIn g m) := by
  induction n generalizing k n' m with
  | zero => exact .left _ _
  | succ n ih =>
    cases n' with
    | zero => exact .right _ _
    | succ n' =>
    obtain ⟨m, rfl⟩ : ∃ m', m = m' + 1 := ⟨m - 1, by omega⟩
    rw [IIz.parseArgumentsIn, IIz.parseArgumentsIn]
    exact .onNextIf (.refl _) fun t j hj => .onNext (.refl _) fun t i hi => .bind (h t i (by omega)) fun _ =>
      .onNextIf (.refl _) fun t l hl => .first (ih (h.mono (by omega)) (by omega))

include h in
theorem foundYr_upTo (t : Token) : LeUpTo k (FoundYr.parseIn f t) (FoundYr.parseIn f' t) (FoundYr.parseIn g t) :=
  .onNext (.refl _) fun t j hj => .first (h t j hj)

include h in
theorem assignment_upTo (v : VariableAccess) :
    LeUpTo k (VariableAssignment.parseIn f v) (VariableAssignment.parseIn f' v) (VariableAssignment.parseIn g v) := by
  unfold VariableAssignment.parseIn
  refine .onNext (.refl _) fun t j hj => ?_
  dsimp only
  split
  · exact .onNext (.refl _) fun t i hi => .first (h t i (by omega))
  · exact .refl _

include h in
theorem setSlot_upTo (v : VariableAccess) : LeUpTo k (BukkitSetSlot.parseIn f v) (BukkitSetSlot.parseIn f' v) (BukkitSetSlot.parseIn g v) := by
  unfold BukkitSetSlot.parseIn
  refine .onNext (.refl _) fun t j hj => ?_
  dsimp only
  split
  · refine .onNext (.refl _) fun t i hi => .then fun _ => .onNext (.refl _) fun t l hl => ?_
    dsimp only
    split
    · exact .onNext (.refl _) fun t i hi => .first (h t i (by omega))
    · exact .refl _
  · exact .refl _

include h in
theorem iIz_upTo {n n' m : Nat} (hm : min n n' ≤ m) (t : Token) : LeUpTo k (IIz.parseIn f n t) (IIz.parseIn f' n' t) (IIz.parseIn g m t) :=
  .onNext (.refl _) fun t j hj => .bind (access_upTo hm t) fun _ =>
    .first (arguments_upTo (h.mono (by omega)) hm)

include h in
theorem conditional_upTo : LeUpTo k (parseConditionalIn f) (parseConditionalIn f') (parseConditionalIn g) :=
  .onNextIf (.refl _) fun t j hj => .onNext (.refl _) fun t i hi => .first (h t i (by omega))

include h in
theorem accessStatement_upTo {n n' m : Nat} (hm : min n n' ≤ m) (t : Token) :
    LeUpTo k (parseAccessStatementIn f n t) (parseAccessStatementIn f' n' t) (parseAccessStatementIn g m t) := by
  unfold parseAccessStatementIn
  refine .bind (access_upTo hm t) fun v => .then fun o => ?_
  cases o with
  | none => exact .refl _
  | some t =>
    dsimp only
    split
    · exact .first (assignment_upTo h v)
    · exact .first (setSlot_upTo h v)
    · exact .refl _

end

/-- The same of two parsers of blocks. -/
def BlockUpTo (k : Nat) (b b₂ b' : (Token → Bool) → Prog Block) : Prop := ∀ stop, LeUpTo k (b stop) (b₂ stop) (b' stop)

theorem BlockUpTo.mono {j k : Nat} {b b₂ b' : (Token → Bool) → Prog Block} (h : BlockUpTo k b b₂ b') (hj : j ≤ k) :
    BlockUpTo j b b₂ b' := fun stop => (h stop).mono hj

section

variable {f f' g : Token → Prog Expr} {b b₂ b' : (Token → Bool) → Prog Block}

theorem imInYr_upTo {k n n' m : Nat} (h : ExprUpTo k f f' g) (hb : BlockUpTo k b b₂ b') (hm : min n n' ≤ m) (t : Token) :
    LeUpTo k (parseImInYrIn b f n t) (parseImInYrIn b₂ f' n' t) (parseImInYrIn b' g m t) := by
  unfold parseImInYrIn
  refine .onNext (.refl _) fun t j hj => ?_
  dsimp only
  split
  · exact .bind (iteration_upTo hm) fun _ => .bind (conditional_upTo (h.mono (by omega))) fun _ =>
      .then fun _ => .first ((hb _).mono (by omega))
  · exact .refl _

theorem howIzI_upTo {k n n' m : Nat} (hb : BlockUpTo k b b₂ b') (hm : min n n' ≤ m) (t : Token) :
    LeUpTo k (parseHowIzI b n t) (parseHowIzI b₂ n' t) (parseHowIzI b' m t) := by
  unfold parseHowIzI
  exact .onNext (.refl _) fun t j hj => .then fun _ => .bind (parameters_upTo hm) fun _ =>
    .then fun _ => .first ((hb _).mono (by omega))

theorem omgs_upTo {k n n' m : Nat} (h : ExprUpTo k f f' g) (hb : BlockUpTo k b b₂ b') (hm : min n n' ≤ m) :
    LeUpTo k (parseOmgsIn b f n) (parseOmgsIn b₂ f' n') (parseOmgsIn b' g m) := by
  induction n generalizing k n' m with
  | zero => exact .left _ _
  | succ n ih =>
    cases n' with
    | zero => exact .right _ _
    | succ n' =>
    obtain ⟨m, rfl⟩ : ∃ m', m = m' + 1 := ⟨m - 1, by omega⟩
    rw [parseOmgsIn, parseOmgsIn]
    exact .onNextIf (.refl _) fun t j hj => .onNext (.refl _) fun t i hi => .bind (h t i (by omega)) fun _ =>
      .then fun _ => .bind ((hb _).mono (by omega)) fun _ =>
      .first (ih (h.mono (by omega)) (hb.mono (by omega)) (by omega))

theorem mebbes_upTo {k n n' m : Nat} (h : ExprUpTo k f f' g) (hb : BlockUpTo k b b₂ b') (hm : min n n' ≤ m) :
    LeUpTo k (parseMebbesIn b f n) (parseMebbesIn b₂ f' n') (parseMebbesIn b' g m) := by
  induction n generalizing k n' m with
  | zero => exact .left _ _
  | succ n ih =>
    cases n' with
    | zero => exact .right _ _
    | succ n' =>
    obtain ⟨m, rfl⟩ : ∃ m', m = m' + 1 := ⟨m - 1, by omega⟩
    rw [parseMebbesIn, parseMebbesIn]
    exact .onNextIfTokenTypeEq (.refl _) fun t j hj => .onNext (.refl _) fun t i hi =>
      .bind (h t i (by omega)) fun _ => .then fun _ => .bind ((hb _).mono (by omega)) fun _ =>
      .first (ih (h.mono (by omega)) (hb.mono (by omega)) (by omega))

theorem omgWtf_upTo {k : Nat} (hb : BlockUpTo k b b₂ b') : LeUpTo k (parseOmgWtf b) (parseOmgWtf b₂) (parseOmgWtf b') :=
  .onNextIf (.refl _) fun t j hj => .then fun _ => .first ((hb _).mono (by omega))

theorem yaRly_upTo {k : Nat} (hb : BlockUpTo k b b₂ b') : LeUpTo k (parseYaRly b) (parseYaRly b₂) (parseYaRly b') :=
  .onNextIf (.refl _) fun t j hj => .then fun _ => .first ((hb _).mono (by omega))

theorem noWai_upTo {k : Nat} (hb : BlockUpTo k b b₂ b') : LeUpTo k (parseNoWai b) (parseNoWai b₂) (parseNoWai b') :=
  .onNextIf (.refl _) fun t j hj => .then fun _ => .first ((hb _).mono (by omega))

theorem wtf_upTo {k n n' m : Nat} (h : ExprUpTo k f f' g) (hb : BlockUpTo k b b₂ b') (hm : min n n' ≤ m) (t : Token) :
    LeUpTo k (parseWtfIn b f n t) (parseWtfIn b₂ f' n' t) (parseWtfIn b' g m t) := by
  unfold parseWtfIn
  refine .onNext (.refl _) fun t j hj => ?_
  dsimp only
  split
  · exact .then fun _ => .bind (omgs_upTo (h.mono (by omega)) (hb.mono (by omega)) hm) fun _ =>
      .first (omgWtf_upTo (hb.mono (by omega)))
  · exact .refl _

theorem oRly_upTo {k n n' m : Nat} (h : ExprUpTo k f f' g) (hb : BlockUpTo k b b₂ b') (hm : min n n' ≤ m) (t : Token) :
    LeUpTo k (parseORlyIn b f n t) (parseORlyIn b₂ f' n' t) (parseORlyIn b' g m t) := by
  unfold parseORlyIn
  refine .onNext (.refl _) fun t j hj => ?_
  dsimp only
  split
  · exact .then fun _ => .bind (yaRly_upTo (hb.mono (by omega))) fun _ =>
      .bind (mebbes_upTo (h.mono (by omega)) (hb.mono (by omega)) hm) fun _ => .first (noWai_upTo (hb.mono (by omega)))
  · exact .refl _

theorem statementBody_upTo {k n n' m : Nat} (h : ExprUpTo k f f' g) {t : Token} {j : Nat} (hj : j + t.deep ≤ k)
    (hb : t.deep = 1 → BlockUpTo j b b₂ b') (hm : min n n' ≤ m) :
    LeUpTo j (statementBody b f n t) (statementBody b₂ f' n' t) (statementBody b' g m t) := by
  have hjk := h.mono (j := j) (by omega)
  unfold statementBody
  split
  · exact accessStatement_upTo hjk hm t
  split
  · exact .first (iHasA_upTo hjk t)
  · exact .first (.first (expressions_upTo hjk hm))
  · exact .first (gimmeh_upTo hm t)
  · exact .first (foundYr_upTo hjk t)
  · exact .refl _
  · exact .refl _
  · exact .refl _
  · exact .first (iIz_upTo hjk hm t)
  · exact imInYr_upTo hjk (hb (Token.deep_keyword (by assumption) (by decide))) hm t
  · exact howIzI_upTo (hb (Token.deep_keyword (by assumption) (by decide))) hm t
  · exact wtf_upTo hjk (hb (Token.deep_keyword (by assumption) (by decide))) hm t
  · exact oRly_upTo hjk (hb (Token.deep_keyword (by assumption) (by decide))) hm t
  · exact .first (h t j hj)

theorem blockRound_upTo {k : Nat} {st st₂ st' : Token → Prog Node} {more more₂ more' : Prog Block} (stop : Token → Bool)
    (hs : ∀ t j, j + t.deep ≤ k → LeUpTo j (st t) (st₂ t) (st' t)) (hm : LeUpTo k more more₂ more') :
    LeUpTo k (blockRound st more stop) (blockRound st₂ more₂ stop) (blockRound st' more' stop) := by
  rw [blockRound_eq, blockRound_eq, blockRound_eq]
  refine .bind ?_ fun l => .then fun r => .then fun o => ?_
  · exact .onNext (.refl _) fun t j hj => .first (hs t j hj).toResult
  · cases o with
    | none => exact .refl _
    | some t =>
      dsimp only
      split
      · exact .refl _
      · exact .first hm

end


/-! ## The model's parsers, and the ones on a stack -/

/-- What runs on a stack does what the model does. -/
theorem parseExprIn_upTo {k n d m : Nat} (h : n + d ≤ m) (t : Token) :
    LeUpTo k (parseExprIn n d t) (parseExprIn n d t) (parseExpr m t) := by
  induction d generalizing k m t with
  | zero => exact .left _ _
  | succ d ih =>
    obtain ⟨m, rfl⟩ : ∃ m', m = m' + 1 := ⟨m - 1, by omega⟩
    rw [parseExpr_eq]
    exact exprBody_upTo (by omega) fun _ t j _ => ih (by omega) t

theorem parseBlockIn_upTo {k n d m : Nat} (h : n * (d + 2) + d ≤ m) (stop : Token → Bool) :
    LeUpTo k (parseBlockIn n d stop) (parseBlockIn n d stop) (parseBlock m stop) := by
  induction d generalizing k m stop with
  | zero => exact .left _ _
  | succ d ih =>
    rw [parseBlockIn]
    have hn : n * (d + 1 + 2) = n * (d + 2) + n := by rw [Nat.mul_add, Nat.mul_add, Nat.mul_add]; omega
    have hn2 : n * (d + 2) = n * d + 2 * n := by rw [Nat.mul_add]; omega
    have hl : n + (n * (d + 2) + d) ≤ m := by omega
    clear h
    generalize hst : statementBody (parseBlockIn n d) (parseExprIn n d) n = st
    suffices ∀ l k, l ≤ n → l + (n * (d + 2) + d) ≤ m →
        LeUpTo k (blockLoop st l stop) (blockLoop st l stop) (parseBlock m stop) from this n k (Nat.le_refl _) hl
    clear hl
    intro l
    induction l generalizing m with
    | zero => exact fun _ _ _ => .left _ _
    | succ l ihl =>
      intro k hln hlm
      obtain ⟨m, rfl⟩ : ∃ m', m = m' + 1 := ⟨m - 1, by omega⟩
      rw [parseBlock_eq, blockLoop]
      refine blockRound_upTo stop (fun t j hj => ?_) (ihl k (by omega) (by omega))
      rw [← hst]
      exact statementBody_upTo (fun t i hi => parseExprIn_upTo (by omega) t) hj (fun _ stop => ih (by omega) stop)
        (by omega)

/-- On a stack that is large enough, what the model does is done. -/
theorem parseExpr_upTo {k n d m : Nat} (h : n ≤ m) (hd : k + 1 ≤ d) :
    ExprUpTo k (parseExpr n) (parseExpr n) (parseExprIn m d) := by
  induction d generalizing k n with
  | zero => omega
  | succ d ih =>
    intro t j hj
    cases n with
    | zero => exact .left _ _
    | succ n =>
      rw [parseExpr_eq, parseExprIn]
      exact exprBody_upTo (by omega) fun ht => ih (by omega) (by omega)

theorem parseBlock_upTo {k n d m : Nat} (h : n ≤ m) (hd : k + 2 ≤ d) :
    BlockUpTo k (parseBlock n) (parseBlock n) (parseBlockIn m d) := by
  induction d generalizing k n with
  | zero => omega
  | succ d ih =>
    intro stop
    rw [parseBlockIn]
    generalize hst : statementBody (parseBlockIn m d) (parseExprIn m d) m = st
    suffices ∀ l, n ≤ l → l ≤ m → LeUpTo k (parseBlock n stop) (parseBlock n stop) (blockLoop st l stop) from
      this m h (Nat.le_refl _)
    induction n with
    | zero => exact fun _ _ _ => .left _ _
    | succ n ihn =>
      intro l hnl hlm
      obtain ⟨l, rfl⟩ : ∃ l', l = l' + 1 := ⟨l - 1, by omega⟩
      rw [parseBlock_eq, blockLoop]
      refine blockRound_upTo stop (fun t j hj => ?_) (ihn (by omega) l (by omega) (by omega))
      rw [← hst]
      exact statementBody_upTo (parseExpr_upTo (by omega) (by omega)) hj (fun ht => ih (by omega) (by omega)) (by omega)

/-- If neither the bound on the loops nor the stack is too small, both together are not. -/
theorem parseExprIn_meet {k n d m D : Nat} (hd : d ≤ D) (t : Token) :
    LeUpTo k (parseExprIn n d t) (parseExprIn m D t) (parseExprIn m d t) := by
  induction d generalizing k D t with
  | zero => exact .left _ _
  | succ d ih =>
    obtain ⟨D, rfl⟩ : ∃ D', D = D' + 1 := ⟨D - 1, by omega⟩
    exact exprBody_upTo (Nat.min_le_right n m) fun _ t j _ => ih (by omega) t

theorem parseBlockIn_meet {k n d m D : Nat} (hd : d ≤ D) (stop : Token → Bool) :
    LeUpTo k (parseBlockIn n d stop) (parseBlockIn m D stop) (parseBlockIn m d stop) := by
  induction d generalizing k D stop with
  | zero => exact .left _ _
  | succ d ih =>
    obtain ⟨D, rfl⟩ : ∃ D', D = D' + 1 := ⟨D - 1, by omega⟩
    rw [parseBlockIn, parseBlockIn, parseBlockIn]
    have hs : ∀ t j, LeUpTo j (statementBody (parseBlockIn n d) (parseExprIn n d) n t)
        (statementBody (parseBlockIn m D) (parseExprIn m D) m t)
        (statementBody (parseBlockIn m d) (parseExprIn m d) m t) := fun t j =>
      statementBody_upTo (k := j + t.deep) (fun t _ _ => parseExprIn_meet (by omega) t) (Nat.le_refl _)
        (fun _ stop => ih (by omega) stop) (Nat.min_le_right n m)
    generalize statementBody (parseBlockIn n d) (parseExprIn n d) n = st at *
    generalize statementBody (parseBlockIn m D) (parseExprIn m D) m = st₂ at *
    generalize statementBody (parseBlockIn m d) (parseExprIn m d) m = st' at *
    clear ih
    generalize n = l
    generalize m = l'
    induction l generalizing l' with
    | zero => exact .left _ _
    | succ l ih =>
      cases l' with
      | zero => exact .right _ _
      | succ l' => exact blockRound_upTo stop (fun t j _ => hs t j) (ih l')

/-- A larger stack and a larger bound on the loops change nothing but the overflow. -/
theorem parseExprIn_more {k n m d D : Nat} (hm : n ≤ m) (hd : d ≤ D) (t : Token) :
    LeUpTo k (parseExprIn n d t) (parseExprIn n d t) (parseExprIn m D t) := by
  induction d generalizing k D t with
  | zero => exact .left _ _
  | succ d ih =>
    obtain ⟨D, rfl⟩ : ∃ D', D = D' + 1 := ⟨D - 1, by omega⟩
    exact exprBody_upTo (by omega) fun _ t j _ => ih (by omega) t

theorem parseBlockIn_more {k n m d D : Nat} (hm : n ≤ m) (hd : d ≤ D) (stop : Token → Bool) :
    LeUpTo k (parseBlockIn n d stop) (parseBlockIn n d stop) (parseBlockIn m D stop) := by
  induction d generalizing k D stop with
  | zero => exact .left _ _
  | succ d ih =>
    obtain ⟨D, rfl⟩ : ∃ D', D = D' + 1 := ⟨D - 1, by omega⟩
    rw [parseBlockIn, parseBlockIn]
    have hs : ∀ t j, LeUpTo j (statementBody (parseBlockIn n d) (parseExprIn n d) n t)
        (statementBody (parseBlockIn n d) (parseExprIn n d) n t)
        (statementBody (parseBlockIn m D) (parseExprIn m D) m t) := fun t j =>
      statementBody_upTo (k := j + t.deep) (fun t _ _ => parseExprIn_more hm (by omega) t) (Nat.le_refl _)
        (fun _ stop => ih (by omega) stop) (by omega)
    generalize statementBody (parseBlockIn n d) (parseExprIn n d) n = st at *
    generalize statementBody (parseBlockIn m D) (parseExprIn m D) m = st' at *
    clear ih
    induction n generalizing m with
    | zero => exact .left _ _
    | succ l ih =>
      obtain ⟨m, rfl⟩ : ∃ m', m = m' + 1 := ⟨m - 1, by omega⟩
      exact blockRound_upTo stop (fun t j _ => hs t j) (ih (by omega))

end Lol
