import Verif.Parser.CostSpec
import Verif.Parser.Simulation
import Verif.Parser.Exec

/-! # The parsers make few calls: every token pays for six -/

namespace Lol

theorem calls_abs {α : Type} (p : Prog α) (s : StatementIterator) (h : s.Sound) :
    p.calls Stmts.ops s.abs = p.calls StatementIterator.ops s := by
  induction p generalizing s with
  | ret | err | panic | outOfFuel => rfl
  | next k ih =>
    simp only [Prog.calls, (next_abs s h.good).1]
    exact congrArg _ (ih _ _ (next_sound s))
  | peek k ih =>
    simp only [Prog.calls, (peek_abs s h.good).1]
    exact congrArg _ (ih _ _ (peek_sound s h))
  | nextStatement k ih =>
    simp only [Prog.calls, (nextStatement_abs s h).1]
    exact congrArg _ (ih _ _ (nextStatement_abs s h).2)

/-- The calls of a program on statements. -/
abbrev cost {α : Type} (p : Prog α) (s : Stmts) : Nat := p.calls Stmts.ops s

/-- The tokens still to be delivered, an empty statement counted as one token. -/
def Stmts.weight (s : Stmts) : Nat := s.cur.length + (s.later.map fun c => max 1 c.length).sum

/-- The calls that they pay for. -/
def Stmts.credit (s : Stmts) : Int := 6 * s.weight

/-- The same, with two calls more that are made only once, at the end. -/
def Stmts.credit2 (s : Stmts) : Int := if s.weight = 0 then -2 else 6 * s.weight

/-- The calls of `p` are paid by `k`, up to `c` calls if it succeeds and `e` if it does not; `g` is left. -/
def Paid (g : Stmts → Int) (k : Int) {α : Type} (p : Prog α) (s : Stmts) (c : α → Int) (e : Int) : Prop :=
  match exec p s with
  | .ok a s' => cost p s + g s' ≤ k + c a
  | .err _ s' => cost p s + g s' ≤ k + e
  | .panic _ => cost p s + g ⟨[], []⟩ ≤ k + e
  | .outOfFuel => cost p s + g ⟨[], []⟩ ≤ k + e

/-- The calls of `p` are paid by the tokens it takes, up to `c` calls if it succeeds and `e` if it does not. -/
abbrev Costs {α : Type} (p : Prog α) (s : Stmts) (c : α → Int) (e : Int) : Prop :=
  Paid Stmts.credit s.credit p s c e

/-- The same, and reaching the end pays for two calls more. -/
abbrev CostsEnd {α : Type} (p : Prog α) (s : Stmts) (c : α → Int) (e : Int) : Prop :=
  Paid Stmts.credit2 s.credit2 p s c e

/-- The same, and being at the end pays for two calls more, even if `p` was started there. -/
abbrev CostsAt {α : Type} (p : Prog α) (s : Stmts) (c : α → Int) (e : Int) : Prop :=
  Paid Stmts.credit2 s.credit p s c e

theorem Stmts.credit_nonneg (s : Stmts) : 0 ≤ s.credit := by
  unfold Stmts.credit; omega

theorem Stmts.credit2_le (s : Stmts) : -2 ≤ s.credit2 ∧ s.credit2 ≤ s.credit := by
  unfold Stmts.credit2 Stmts.credit; split <;> omega

theorem Stmts.credit2_eq {s : Stmts} (h : s.weight ≠ 0) : s.credit2 = s.credit := if_neg h

/-- The calls of what follows. -/
def Res.calls {α β : Type} (r : Res Stmts α) (f : α → Prog β) : Nat :=
  match r with
  | .ok a s' => cost (f a) s'
  | _ => 0

theorem Prog.calls_bind {α β : Type} (p : Prog α) (f : α → Prog β) (s : Stmts) :
    cost (p.bind f) s = cost p s + (exec p s).calls f := by
  induction p generalizing s with
  | ret a => exact (Nat.zero_add _).symm
  | err | panic | outOfFuel => rfl
  | next k ih => exact (congrArg (1 + ·) (ih _ _)).trans (Nat.add_assoc ..).symm
  | peek k ih => exact (congrArg (1 + ·) (ih _ _)).trans (Nat.add_assoc ..).symm
  | nextStatement k ih => exact (congrArg (2 + s.cur.length + ·) (ih _ _)).trans (Nat.add_assoc ..).symm

theorem Prog.calls_toResult {σ α : Type} (I : IterOps σ) (p : Prog α) (s : σ) :
    p.toResult.calls I s = p.calls I s := by
  induction p generalizing s with
  | ret | err | panic | outOfFuel => rfl
  | next k ih => simp only [Prog.toResult, Prog.calls, ih]
  | peek k ih => simp only [Prog.toResult, Prog.calls, ih]
  | nextStatement k ih => simp only [Prog.toResult, Prog.calls, ih]

theorem Stmts.advance_weight (s : Stmts) : s.cur.length + s.advance.weight ≤ s.weight := by
  obtain ⟨cur, later⟩ := s
  cases later with
  | nil => simp [Stmts.advance, Stmts.weight]
  | cons c l =>
    simp only [Stmts.advance, Stmts.weight, List.map_cons, List.sum_cons]
    have := Nat.le_max_right 1 c.length
    omega

theorem Stmts.next_weight (s : Stmts) : (Stmts.ops.next s).2.weight ≤ s.weight := by
  obtain ⟨cur, later⟩ := s
  cases cur with
  | nil => exact Nat.le_refl _
  | cons t cur => simp only [Stmts.ops, Stmts.weight, List.length_cons]; omega

/-- No program puts tokens back. -/
theorem exec_weight {α : Type} (p : Prog α) (s : Stmts) :
    match exec p s with
    | .ok _ s' => s'.weight ≤ s.weight
    | .err _ s' => s'.weight ≤ s.weight
    | _ => True := by
  induction p generalizing s with
  | ret | err => exact Nat.le_refl _
  | panic | outOfFuel => trivial
  | next k ih =>
    have h := ih (Stmts.ops.next s).1 (Stmts.ops.next s).2
    have h2 := s.next_weight
    show match exec (k (Stmts.ops.next s).1) (Stmts.ops.next s).2 with
      | .ok _ s' => s'.weight ≤ s.weight
      | .err _ s' => s'.weight ≤ s.weight
      | _ => True
    cases hr : exec (k (Stmts.ops.next s).1) (Stmts.ops.next s).2 <;> simp only [hr] at h ⊢ <;> omega
  | peek k ih => exact ih s.cur.head? s
  | nextStatement k ih =>
    have h := ih s.cur s.advance
    have h2 := s.advance_weight
    show match exec (k s.cur) s.advance with
      | .ok _ s' => s'.weight ≤ s.weight
      | .err _ s' => s'.weight ≤ s.weight
      | _ => True
    cases hr : exec (k s.cur) s.advance <;> simp only [hr] at h ⊢ <;> omega

theorem Paid.bind {α β : Type} {p : Prog α} {f : α → Prog β} {s : Stmts} {c : α → Int} {d : β → Int} {e e' k : Int}
    {g g' : Stmts → Int} (hg : ∀ s, g' s ≤ g s) (h : Paid g k p s c e) (he : e ≤ e')
    (hf : ∀ a s', exec p s = .ok a s' → Paid g' (g s') (f a) s' (fun b => d b - c a) (e' - c a)) :
    Paid g' k (p >>= f) s d e' := by
  have hc : cost (p >>= f) s = cost p s + (exec p s).calls f := Prog.calls_bind p f s
  have h0 := hg ⟨[], []⟩
  unfold Paid at *
  rw [exec_bind, hc]
  cases hp : exec p s with
  | ok a s' =>
    have h2 := hf a s' hp
    simp only [hp, Res.andThen_ok, Res.calls] at h h2 ⊢
    cases hq : exec (f a) s' <;> simp only [hq] at h2 ⊢ <;> omega
  | err x s' =>
    have := hg s'
    simp only [hp, Res.andThen_err, Res.calls] at h ⊢; omega
  | panic x => simp only [hp, Res.andThen_panic, Res.calls] at h ⊢; omega
  | outOfFuel => simp only [hp, Res.andThen_outOfFuel, Res.calls] at h ⊢; omega

theorem Paid.mono {α : Type} {p : Prog α} {s : Stmts} {c d : α → Int} {e e' k : Int} {g : Stmts → Int}
    (h : Paid g k p s c e) (hc : ∀ a, c a ≤ d a) (he : e ≤ e') : Paid g k p s d e' := by
  unfold Paid at *
  cases hp : exec p s with
  | ok a s' => have := hc a; simp only [hp] at h ⊢; omega
  | err x s' => simp only [hp] at h ⊢; omega
  | panic x => simp only [hp] at h ⊢; omega
  | outOfFuel => simp only [hp] at h ⊢; omega

/-- More to pay with. -/
theorem Paid.start {α : Type} {p : Prog α} {s : Stmts} {c d : α → Int} {e e' k k' : Int} {g : Stmts → Int}
    (h : Paid g k p s c e) (hc : ∀ a, k + c a ≤ k' + d a) (he : k + e ≤ k' + e') : Paid g k' p s d e' := by
  unfold Paid at *
  cases hp : exec p s with
  | ok a s' => have := hc a; simp only [hp] at h ⊢; omega
  | err x s' => simp only [hp] at h ⊢; omega
  | panic x => simp only [hp] at h ⊢; omega
  | outOfFuel => simp only [hp] at h ⊢; omega

theorem Paid.toEnd {α : Type} {p : Prog α} {s : Stmts} {c : α → Int} {e : Int} (h : Costs p s c e) :
    CostsEnd p s c e := by
  have hw := exec_weight p s
  have h1 := s.credit2_le
  have h2 : Stmts.weight ⟨[], []⟩ = 0 := rfl
  unfold Costs CostsEnd Paid Stmts.credit2 Stmts.credit at *
  cases hp : exec p s with
  | ok a s' => simp only [hp] at h hw ⊢; split <;> split <;> omega
  | err x s' => simp only [hp] at h hw ⊢; split <;> split <;> omega
  | panic x => simp only [hp, h2, if_pos] at h ⊢; split <;> omega
  | outOfFuel => simp only [hp, h2, if_pos] at h ⊢; split <;> omega

theorem Paid.toAt {α : Type} {p : Prog α} {s : Stmts} {c : α → Int} {e : Int} (h : Costs p s c e) :
    CostsAt p s c e :=
  (Paid.toEnd h).start (fun a => by have := s.credit2_le; omega) (by have := s.credit2_le; omega)

theorem Paid.ofAt {α : Type} {p : Prog α} {s : Stmts} {c : α → Int} {e : Int} (hs : s.cur ≠ [])
    (h : CostsAt p s c e) : CostsEnd p s c e := by
  have : s.weight ≠ 0 := by
    have := List.length_pos_iff.2 hs
    unfold Stmts.weight; omega
  unfold CostsEnd
  rw [Stmts.credit2_eq this]
  exact h

theorem Costs.pure {α : Type} {a : α} {s : Stmts} {c : α → Int} {e : Int} (h : 0 ≤ c a) :
    Costs (pure a) s c e := by
  show (0 : Int) + s.credit ≤ _; omega

theorem Costs.fail {α : Type} {x : ASTError} {s : Stmts} {c : α → Int} {e : Int} (h : 0 ≤ e) :
    Costs (Lol.fail x) s c e := by
  show (0 : Int) + s.credit ≤ _; omega

theorem Costs.panic {α : Type} {x : PanicSite} {s : Stmts} {c : α → Int} {e : Int} (h : 0 ≤ e) :
    Costs (.panic x) s c e := by
  have := s.credit_nonneg
  show (0 : Int) + 0 ≤ _; omega

theorem Costs.outOfFuel {α : Type} {s : Stmts} {c : α → Int} {e : Int} (h : 0 ≤ e) :
    Costs .outOfFuel s c e := by
  have := s.credit_nonneg
  show (0 : Int) + 0 ≤ _; omega

theorem Paid.toResult {α : Type} {p : Prog α} {s : Stmts} {c k : Int} {g : Stmts → Int}
    (h : Paid g k p s (fun _ => c) c) : Paid g k p.toResult s (fun _ => c) c := by
  have hc : cost p.toResult s = cost p s := Prog.calls_toResult ..
  unfold Paid at *
  rw [exec_toResult, hc]
  cases hp : exec p s <;> simp only [hp] at h <;> exact h

/-- What a call of `next` costs: a token pays for six calls. -/
def nextCost (n : Int) : Option Token → Int
  | none => 1
  | some _ => n - 6

theorem next_costs (s : Stmts) : Costs next s (nextCost 1) 0 := by
  obtain ⟨cur, later⟩ := s
  cases cur with
  | nil => exact Int.le_of_eq (Int.add_comm 1 (Stmts.credit ⟨[], later⟩))
  | cons t cur =>
    show (1 : Int) + Stmts.credit ⟨cur, later⟩ ≤ Stmts.credit ⟨t :: cur, later⟩ + (1 - 6)
    simp only [Stmts.credit, Stmts.weight, List.length_cons]; omega

theorem peek_costs (s : Stmts) : Costs peek s (fun _ => 1) 0 := by
  obtain ⟨cur, later⟩ := s
  cases cur <;> (show (1 : Int) + _ ≤ _ + 1; exact Int.le_of_eq (Int.add_comm ..))

theorem peek_cur {s s' : Stmts} {t : Token} (h : exec peek s = .ok (some t) s') : s'.cur ≠ [] := by
  obtain ⟨cur, later⟩ := s
  cases cur with
  | nil => cases h
  | cons u cur => cases h; intro h; cases h

theorem next_none_cur {s s' : Stmts} (h : exec next s = .ok none s') : s.cur = [] := by
  obtain ⟨cur, later⟩ := s
  cases cur with
  | nil => rfl
  | cons u cur => cases h

theorem next_some_cur {s s' : Stmts} {t : Token} (h : exec next s = .ok (some t) s') : s.cur ≠ [] := by
  obtain ⟨cur, later⟩ := s
  cases cur with
  | nil => cases h
  | cons u cur => intro h; cases h

theorem nextIf_some_cur {f : Token → Bool} {s s' : Stmts} {t : Token} (h : exec (nextIf f) s = .ok (some t) s') :
    s.cur ≠ [] := by
  obtain ⟨cur, later⟩ := s
  cases cur with
  | nil => simp at h
  | cons u cur => intro h; cases h

theorem nextEq_some_cur {ty : TokenType} {s s' : Stmts} {t : Token}
    (h : exec (nextIfTokenTypeEq ty) s = .ok (some t) s') : s.cur ≠ [] := by
  obtain ⟨cur, later⟩ := s
  cases cur with
  | nil => simp at h
  | cons u cur => intro h; cases h

theorem nextWhen_costs (q : Token → Prop) [DecidablePred q] (s : Stmts) :
    Costs (do
      match ← peek with
      | some token => if q token then next else Pure.pure none
      | none => Pure.pure none) s (nextCost 2) 0 := by
  obtain ⟨cur, later⟩ := s
  cases cur with
  | nil => exact Int.le_of_eq (Int.add_comm 1 (Stmts.credit ⟨[], later⟩))
  | cons t cur =>
    by_cases h : q t
    · have h1 : exec (do
          match ← peek with
          | some token => if q token then next else Pure.pure none
          | none => Pure.pure none) ⟨t :: cur, later⟩ = .ok (some t) ⟨cur, later⟩ := by
        simp [h]
      have h2 : cost (do
          match ← peek with
          | some token => if q token then next else Pure.pure none
          | none => Pure.pure none) ⟨t :: cur, later⟩ = 2 := by
        show 1 + Prog.calls _ (if q t then next else Pure.pure none) _ = 2
        rw [if_pos h]; rfl
      unfold Costs Paid
      rw [h1, h2]
      simp only [Stmts.credit, Stmts.weight, List.length_cons, nextCost]; omega
    · have h1 : exec (do
          match ← peek with
          | some token => if q token then next else Pure.pure none
          | none => Pure.pure none) ⟨t :: cur, later⟩ = .ok none ⟨t :: cur, later⟩ := by
        simp [h]
      have h2 : cost (do
          match ← peek with
          | some token => if q token then next else Pure.pure none
          | none => Pure.pure none) ⟨t :: cur, later⟩ = 1 := by
        show 1 + Prog.calls _ (if q t then next else Pure.pure none) _ = 1
        rw [if_neg h]; rfl
      unfold Costs Paid
      rw [h1, h2]
      simp only [nextCost]; omega

theorem nextIf_costs (f : Token → Bool) (s : Stmts) : Costs (nextIf f) s (nextCost 2) 0 :=
  nextWhen_costs (fun t => f t = true) s

theorem nextEq_costs (ty : TokenType) (s : Stmts) : Costs (nextIfTokenTypeEq ty) s (nextCost 2) 0 :=
  nextWhen_costs (fun t => t.tokenType = ty) s

theorem nextNe_costs (ty : TokenType) (s : Stmts) : Costs (nextIfTokenTypeNe ty) s (nextCost 2) 0 :=
  nextWhen_costs (fun t => t.tokenType ≠ ty) s

theorem nextStatement_costs (s : Stmts) : Costs nextStatement s (fun _ => 2) 0 := by
  have := s.advance_weight
  show ((2 + s.cur.length + 0 : Nat) : Int) + s.advance.credit ≤ s.credit + 2
  unfold Stmts.credit
  omega

theorem empty_costs (s : Stmts) : Costs nextStatementShouldBeEmpty s (fun _ => 2) 2 := by
  refine (nextStatement_costs s).bind (fun _ => Int.le_refl _) (by omega) fun r s' _ => ?_
  split
  · exact Costs.pure (by omega)
  · exact Costs.fail (by omega)

/-- One step of a cost proof. -/
macro "cost_step " h:term : tactic => `(tactic|
  refine Paid.bind (fun _ => Int.le_refl _) $h (by (try simp only [nextCost] at *); omega) ?_)

/-- One step of a cost proof on the way to the end. -/
macro "cost_to " h:term : tactic => `(tactic|
  refine Paid.bind (fun s => s.credit2_le.2) $h (by (try simp only [nextCost] at *); omega) ?_)

/-- A leaf of a cost proof. -/
macro "cost_leaf" : tactic => `(tactic|
  first
  | (refine Costs.pure ?_; (try simp only [nextCost]); omega)
  | (refine Costs.fail ?_; (try simp only [nextCost]); omega)
  | (refine Costs.panic ?_; (try simp only [nextCost]); omega)
  | (refine Costs.outOfFuel ?_; (try simp only [nextCost]); omega))

/-- A leaf of a cost proof that counts the end. -/
macro "cost_end" : tactic => `(tactic| first | (refine Paid.toEnd ?_; cost_leaf) | (refine Paid.toAt ?_; cost_leaf))

theorem Identifier.parse_costs (t : Token) (s : Stmts) : Costs (Identifier.parse t) s (fun _ => 0) 1 := by
  unfold Identifier.parse
  split
  · cost_leaf
  · cost_step next_costs s
    rintro (_ | u) s' _
    · cost_leaf
    · dsimp only
      split <;> cost_leaf
  · cost_leaf

theorem parseSlots_costs (n : Nat) (s : Stmts) : Costs (VariableAccess.parseSlots n) s (fun _ => 1) 1 := by
  induction n generalizing s with
  | zero => exact Costs.outOfFuel (by omega)
  | succ n ih =>
    unfold VariableAccess.parseSlots
    cost_step nextIf_costs _ s
    rintro (_ | t) s' _
    · cost_leaf
    cost_step next_costs s'
    rintro (_ | u) s' _
    · cost_leaf
    cost_step Identifier.parse_costs u s'
    intro i s' _
    cost_step ih s'
    intro _ s' _
    cost_leaf

theorem VariableAccess.parse_costs (n : Nat) (t : Token) (s : Stmts) :
    Costs (VariableAccess.parse n t) s (fun _ => 1) 1 := by
  unfold VariableAccess.parse
  cost_step Identifier.parse_costs t s
  intro _ s' _
  cost_step parseSlots_costs n s'
  intro _ s' _
  cost_leaf

theorem parseBinary_costs {expr : Token → Prog Expr} (h : ∀ t s, Costs (expr t) s (fun _ => 2) 2) (op : BinaryOpt)
    (s : Stmts) : Costs (parseBinary expr op) s (fun _ => 2) 2 := by
  unfold parseBinary
  cost_step next_costs s
  rintro (_ | t) s' _
  · cost_leaf
  cost_step h t s'
  intro _ s' _
  cost_step nextIf_costs _ s'
  rintro (_ | _) s' _
  all_goals
    cost_step next_costs s'
    rintro (_ | u) s' _
    · cost_leaf
    cost_step h u s'
    intro _ s' _
    cost_leaf

theorem parseUnary_costs {expr : Token → Prog Expr} (h : ∀ t s, Costs (expr t) s (fun _ => 2) 2) (op : UnaryOpt)
    (s : Stmts) : Costs (parseUnary expr op) s (fun _ => 2) 2 := by
  unfold parseUnary
  cost_step next_costs s
  rintro (_ | t) s' _
  · cost_leaf
  cost_step h t s'
  intro _ s' _
  cost_leaf

theorem parseOperands_costs {expr : Token → Prog Expr} (h : ∀ t s, Costs (expr t) s (fun _ => 2) 2) (n : Nat)
    (s : Stmts) : Costs (parseOperands expr n) s (fun _ => 1) 2 := by
  induction n generalizing s with
  | zero => exact Costs.outOfFuel (by omega)
  | succ n ih =>
    unfold parseOperands
    cost_step nextNe_costs _ s
    rintro (_ | t) s' _
    · cost_leaf
    cost_step h t s'
    intro _ s' _
    cost_step nextEq_costs _ s'
    rintro (_ | _) s' _
    all_goals
      cost_step ih s'
      intro _ s' _
      cost_leaf

theorem parseNary_costs {expr : Token → Prog Expr} (h : ∀ t s, Costs (expr t) s (fun _ => 2) 2) (n : Nat)
    (op : NaryOpt) (s : Stmts) : Costs (parseNary expr n op) s (fun _ => 2) 2 := by
  unfold parseNary
  cost_step parseOperands_costs h n s
  intro _ s' _
  cost_step next_costs s'
  rintro (_ | _) s' _ <;> cost_leaf

theorem parseExpr_costs (n : Nat) (t : Token) (s : Stmts) : Costs (parseExpr n t) s (fun _ => 2) 2 := by
  induction n generalizing t s with
  | zero => exact Costs.outOfFuel (by omega)
  | succ n ih =>
    unfold parseExpr
    split
    all_goals first
      | cost_leaf
      | exact parseBinary_costs ih _ s
      | exact parseUnary_costs ih _ s
      | exact parseNary_costs ih _ _ s
      | (cost_step VariableAccess.parse_costs n t s
         intro _ s' _
         cost_leaf)

theorem IHasA.parse_costs (n : Nat) (t : Token) (s : Stmts) : Costs (IHasA.parse n t) s (fun _ => 2) 2 := by
  unfold IHasA.parse
  cost_step next_costs s
  rintro (_ | t) s' _
  · cost_leaf
  dsimp only
  split
  · cost_step Identifier.parse_costs _ s'
    intro _ s' _
    cost_step next_costs s'
    rintro (_ | u) s' _
    · cost_leaf
    dsimp only
    split
    · cost_step next_costs s'
      rintro (_ | v) s' _
      · cost_leaf
      dsimp only
      split
      · cost_leaf
      · cost_step parseExpr_costs n v s'
        intro _ s' _
        cost_leaf
    · cost_leaf
  · cost_leaf

theorem parseExpressions_costs (m n : Nat) (s : Stmts) :
    Costs (Visible.parseExpressions m n) s (fun _ => 1) 2 := by
  induction n generalizing s with
  | zero => exact Costs.outOfFuel (by omega)
  | succ n ih =>
    unfold Visible.parseExpressions
    cost_step nextNe_costs _ s
    rintro (_ | t) s' _
    · cost_leaf
    cost_step parseExpr_costs m t s'
    intro _ s' _
    cost_step ih s'
    intro _ s' _
    cost_leaf

theorem Visible.parse_costs (n : Nat) (t : Token) (s : Stmts) : Costs (Visible.parse n t) s (fun _ => 2) 2 := by
  unfold Visible.parse
  cost_step parseExpressions_costs n n s
  intro _ s' _
  cost_step nextEq_costs _ s'
  rintro (_ | _) s' _ <;> cost_leaf

theorem Gimmeh.parse_costs (n : Nat) (t : Token) (s : Stmts) : Costs (Gimmeh.parse n t) s (fun _ => 2) 2 := by
  unfold Gimmeh.parse
  cost_step next_costs s
  rintro (_ | t) s' _
  · cost_leaf
  cost_step VariableAccess.parse_costs n t s'
  intro _ s' _
  cost_leaf

theorem FoundYr.parse_costs (n : Nat) (t : Token) (s : Stmts) : Costs (FoundYr.parse n t) s (fun _ => 2) 2 := by
  unfold FoundYr.parse
  cost_step next_costs s
  rintro (_ | t) s' _
  · cost_leaf
  cost_step parseExpr_costs n t s'
  intro _ s' _
  cost_leaf

theorem Hai.parse_costs (t : Token) (s : Stmts) : Costs (Hai.parse t) s (fun _ => 2) 2 := by
  unfold Hai.parse
  cost_step nextStatement_costs s
  intro _ s' _
  cost_leaf

theorem VariableAssignment.parse_costs (n : Nat) (v : VariableAccess) (s : Stmts)
    (hs : s.cur ≠ []) :
    Costs (VariableAssignment.parse n v) s (fun _ => 0) 0 := by
  unfold VariableAssignment.parse
  cost_step next_costs s
  rintro (_ | t) s' h
  · exact absurd (next_none_cur h) hs
  dsimp only
  split
  · cost_step next_costs s'
    rintro (_ | u) s' _
    · cost_leaf
    cost_step parseExpr_costs n u s'
    intro _ s' _
    cost_leaf
  · cost_leaf

theorem BukkitSetSlot.parse_costs (n : Nat) (v : VariableAccess) (s : Stmts)
    (hs : s.cur ≠ []) :
    Costs (BukkitSetSlot.parse n v) s (fun _ => 0) 0 := by
  unfold BukkitSetSlot.parse
  cost_step next_costs s
  rintro (_ | t) s' h
  · exact absurd (next_none_cur h) hs
  dsimp only
  split
  · cost_step next_costs s'
    rintro (_ | u) s' _
    · cost_leaf
    cost_step Identifier.parse_costs u s'
    intro _ s' _
    cost_step next_costs s'
    rintro (_ | w) s' _
    · cost_leaf
    dsimp only
    split
    · cost_step next_costs s'
      rintro (_ | x) s' _
      · cost_leaf
      cost_step parseExpr_costs n x s'
      intro _ s' _
      cost_leaf
    · cost_leaf
  · cost_leaf

theorem parseArguments_costs (m n : Nat) (s : Stmts) : Costs (IIz.parseArguments m n) s (fun _ => 1) 1 := by
  induction n generalizing s with
  | zero => exact Costs.outOfFuel (by omega)
  | succ n ih =>
    unfold IIz.parseArguments
    cost_step nextIf_costs _ s
    rintro (_ | t) s' _
    · cost_leaf
    cost_step next_costs s'
    rintro (_ | u) s' _
    · cost_leaf
    cost_step parseExpr_costs m u s'
    intro _ s' _
    cost_step nextIf_costs _ s'
    rintro (_ | _) s' _
    · cost_leaf
    cost_step ih s'
    intro _ s' _
    cost_leaf

theorem IIz.parse_costs (n : Nat) (t : Token) (s : Stmts) : Costs (IIz.parse n t) s (fun _ => 2) 2 := by
  unfold IIz.parse
  cost_step next_costs s
  rintro (_ | t) s' _
  · cost_leaf
  cost_step VariableAccess.parse_costs n t s'
  intro _ s' _
  cost_step parseArguments_costs n n s'
  intro _ s' _
  cost_step next_costs s'
  rintro (_ | u) s' _
  · cost_leaf
  dsimp only
  split <;> cost_leaf

theorem parseConditional_costs (n : Nat) (s : Stmts) : Costs (parseConditional n) s (fun _ => 1) 1 := by
  unfold parseConditional
  cost_step nextIf_costs _ s
  rintro (_ | t) s' _
  · cost_leaf
  cost_step next_costs s'
  rintro (_ | u) s' _
  · cost_leaf
  cost_step parseExpr_costs n u s'
  intro _ s' _
  split <;> cost_leaf

theorem parseIterationOperation_costs (n : Nat) (s : Stmts) :
    Costs (parseIterationOperation n) s (fun _ => 1) 1 := by
  unfold parseIterationOperation
  cost_step nextIf_costs _ s
  rintro (_ | t) s' _
  · cost_leaf
  cost_step next_costs s'
  rintro (_ | u) s' _
  · cost_leaf
  dsimp only
  split
  · cost_step next_costs s'
    rintro (_ | v) s' _
    · cost_leaf
    cost_step VariableAccess.parse_costs n v s'
    intro _ s' _
    cost_leaf
  · cost_leaf

theorem parseParameters_costs (n : Nat) (s : Stmts) : Costs (parseParameters n) s (fun _ => 1) 1 := by
  induction n generalizing s with
  | zero => exact Costs.outOfFuel (by omega)
  | succ n ih =>
    unfold parseParameters
    cost_step nextIf_costs _ s
    rintro (_ | t) s' _
    · cost_leaf
    cost_step next_costs s'
    rintro (_ | u) s' _
    · cost_leaf
    cost_step Identifier.parse_costs u s'
    intro _ s' _
    cost_step peek_costs s'
    rintro (_ | v) s' _
    · cost_leaf
    dsimp only
    split
    · cost_step next_costs s'
      rintro (_ | _) s' _
      all_goals
        cost_step ih s'
        intro _ s' _
        cost_leaf
    · cost_leaf

theorem parseAccessStatement_costs (n : Nat) (t : Token) (s : Stmts) :
    Costs (parseAccessStatement n t) s (fun _ => 2) 2 := by
  unfold parseAccessStatement
  cost_step VariableAccess.parse_costs n t s
  intro _ s' _
  cost_step peek_costs s'
  rintro (_ | u) s' h
  · cost_leaf
  have h := peek_cur h
  dsimp only
  split
  · cost_step VariableAssignment.parse_costs n _ s' h
    intro _ s' _
    cost_leaf
  · cost_step BukkitSetSlot.parse_costs n _ s' h
    intro _ s' _
    cost_leaf
  · cost_leaf


/-- What a block costs: only an empty first statement is not paid for. -/
def blockCost (s : Stmts) : Int := if s.cur = [] then 4 else 0

section
variable {block : (Token → Bool) → Prog Block}
  (hb : ∀ stop s, CostsEnd (block stop) s (fun _ => blockCost s) (blockCost s))
include hb

/-- A block after the end of a statement costs four calls: if its first statement is empty, then that was one of the
statements, or it is the end. -/
theorem enter_costs {α : Type} (stop : Token → Bool) {g : Block → Prog α} (s : Stmts) {d : α → Int} {e : Int}
    (he : 4 ≤ e) (hg : ∀ b s', CostsEnd (g b) s' (fun a => d a - 4) (e - 4)) :
    CostsAt (nextStatementShouldBeEmpty >>= fun _ => block stop >>= g) s d e := by
  have key : (2 + s.cur.length + (s.advance.credit2 + blockCost s.advance) : Int) ≤ s.credit + 4 := by
    obtain ⟨cur, later⟩ := s
    cases later with
    | nil =>
      show (2 + cur.length + (-2 + 4) : Int) ≤ _
      simp only [Stmts.credit, Stmts.weight, List.map_nil, List.sum_nil]; omega
    | cons c l =>
      have h1 := (Stmts.credit2_le ⟨c, l⟩).2
      cases c with
      | nil =>
        simp only [Stmts.advance, blockCost, Stmts.credit, Stmts.weight, List.map_cons, List.sum_cons,
          List.length_nil, if_pos] at *
        omega
      | cons t c =>
        have h2 : blockCost ⟨t :: c, l⟩ = 0 := if_neg (by simp)
        have h3 := Nat.le_max_right 1 (t :: c).length
        simp only [Stmts.advance, h2, Stmts.credit, Stmts.weight, List.map_cons, List.sum_cons] at *
        omega
  have first : Paid (fun s => s.credit2 + blockCost s) s.credit nextStatementShouldBeEmpty s (fun _ => 4) 4 := by
    have hc : cost nextStatementShouldBeEmpty s = 2 + s.cur.length := by
      show 2 + s.cur.length + Prog.calls _ (if s.cur.isEmpty then pure () else fail _) _ = _
      split <;> rfl
    unfold Paid
    rw [exec_nextStatementShouldBeEmpty, hc]
    by_cases hs : s.cur = []
    · rw [if_pos hs]; dsimp only; omega
    · rw [if_neg hs]; dsimp only; omega
  refine Paid.bind (fun s => ?_) first he fun _ s' _ => ?_
  · have : 0 ≤ blockCost s := by unfold blockCost; split <;> omega
    omega
  · refine Paid.start (k := s'.credit2) (c := fun a => d a - 4 + blockCost s') (e := e - 4 + blockCost s') ?_
      (fun a => by omega) (by omega)
    refine Paid.bind (fun _ => Int.le_refl _) (hb stop s') (by omega) fun b s'' _ => ?_
    exact (hg b s'').mono (fun a => by omega) (by omega)

theorem parseImInYr_costs (n : Nat) (t : Token) (s : Stmts) : CostsEnd (parseImInYr block n t) s (fun _ => 2) 2 := by
  unfold parseImInYr
  by_cases hs : s.cur = []
  · cost_step Paid.toEnd (next_costs s)
    rintro (_ | t) s' h
    · cost_end
    · exact absurd hs (next_some_cur h)
  refine Paid.ofAt hs ?_
  cost_to next_costs s
  rintro (_ | t) s' _
  · cost_end
  dsimp only
  split
  · cost_to parseIterationOperation_costs n s'
    intro _ s' _
    cost_to parseConditional_costs n s'
    intro _ s' _
    refine enter_costs hb _ s' (by simp only [nextCost]; omega) fun _ s' => ?_
    cost_step Paid.toEnd (next_costs s')
    rintro (_ | u) s' _
    · cost_end
    cost_step Paid.toEnd (next_costs s')
    rintro (_ | v) s' _
    · cost_end
    dsimp only
    split <;> cost_end
  · cost_end

theorem parseHowIzI_costs (n : Nat) (t : Token) (s : Stmts) : CostsEnd (parseHowIzI block n t) s (fun _ => 2) 2 := by
  unfold parseHowIzI
  by_cases hs : s.cur = []
  · cost_step Paid.toEnd (next_costs s)
    rintro (_ | t) s' h
    · cost_end
    · exact absurd hs (next_some_cur h)
  refine Paid.ofAt hs ?_
  cost_to next_costs s
  rintro (_ | t) s' _
  · cost_end
  cost_to Identifier.parse_costs t s'
  intro _ s' _
  cost_to parseParameters_costs n s'
  intro _ s' _
  refine enter_costs hb _ s' (by simp only [nextCost]; omega) fun _ s' => ?_
  cost_step Paid.toEnd (next_costs s')
  rintro (_ | u) s' _
  · cost_end
  dsimp only
  split
  · cost_step Paid.toEnd (empty_costs s')
    intro _ s' _
    cost_end
  · cost_end

theorem parseOmgs_costs (m n : Nat) (s : Stmts) : CostsEnd (parseOmgs block m n) s (fun _ => 1) 1 := by
  induction n generalizing s with
  | zero => exact Paid.toEnd (Costs.outOfFuel (by omega))
  | succ n ih =>
    unfold parseOmgs
    by_cases hs : s.cur = []
    · cost_step Paid.toEnd (nextIf_costs _ s)
      rintro (_ | t) s' h
      · cost_end
      · exact absurd hs (nextIf_some_cur h)
    refine Paid.ofAt hs ?_
    cost_to nextIf_costs _ s
    rintro (_ | t) s' _
    · cost_end
    cost_to next_costs s'
    rintro (_ | u) s' _
    · cost_end
    cost_to parseExpr_costs m u s'
    intro _ s' _
    refine enter_costs hb _ s' (by simp only [nextCost]; omega) fun _ s' => ?_
    cost_step ih s'
    intro _ s' _
    cost_end

theorem parseMebbes_costs (m n : Nat) (s : Stmts) : CostsEnd (parseMebbes block m n) s (fun _ => 1) 1 := by
  induction n generalizing s with
  | zero => exact Paid.toEnd (Costs.outOfFuel (by omega))
  | succ n ih =>
    unfold parseMebbes
    by_cases hs : s.cur = []
    · cost_step Paid.toEnd (nextEq_costs _ s)
      rintro (_ | t) s' h
      · cost_end
      · exact absurd hs (nextEq_some_cur h)
    refine Paid.ofAt hs ?_
    cost_to nextEq_costs _ s
    rintro (_ | t) s' _
    · cost_end
    cost_to next_costs s'
    rintro (_ | u) s' _
    · cost_end
    cost_to parseExpr_costs m u s'
    intro _ s' _
    refine enter_costs hb _ s' (by simp only [nextCost]; omega) fun _ s' => ?_
    cost_step ih s'
    intro _ s' _
    cost_end

theorem parseOmgWtf_costs (s : Stmts) : CostsEnd (parseOmgWtf block) s (fun _ => 1) 1 := by
  unfold parseOmgWtf
  by_cases hs : s.cur = []
  · cost_step Paid.toEnd (nextIf_costs _ s)
    rintro (_ | t) s' h
    · cost_end
    · exact absurd hs (nextIf_some_cur h)
  refine Paid.ofAt hs ?_
  cost_to nextIf_costs _ s
  rintro (_ | t) s' _
  · cost_end
  refine enter_costs hb _ s' (by simp only [nextCost]; omega) fun _ s' => ?_
  cost_end

theorem parseYaRly_costs (s : Stmts) : CostsEnd (parseYaRly block) s (fun _ => 1) 1 := by
  unfold parseYaRly
  by_cases hs : s.cur = []
  · cost_step Paid.toEnd (nextIf_costs _ s)
    rintro (_ | t) s' h
    · cost_end
    · exact absurd hs (nextIf_some_cur h)
  refine Paid.ofAt hs ?_
  cost_to nextIf_costs _ s
  rintro (_ | t) s' _
  · cost_end
  refine enter_costs hb _ s' (by simp only [nextCost]; omega) fun _ s' => ?_
  cost_end

theorem parseNoWai_costs (s : Stmts) : CostsEnd (parseNoWai block) s (fun _ => 1) 1 := by
  unfold parseNoWai
  by_cases hs : s.cur = []
  · cost_step Paid.toEnd (nextIf_costs _ s)
    rintro (_ | t) s' h
    · cost_end
    · exact absurd hs (nextIf_some_cur h)
  refine Paid.ofAt hs ?_
  cost_to nextIf_costs _ s
  rintro (_ | t) s' _
  · cost_end
  refine enter_costs hb _ s' (by simp only [nextCost]; omega) fun _ s' => ?_
  cost_end

theorem parseWtf_costs (n : Nat) (t : Token) (s : Stmts) : CostsEnd (parseWtf block n t) s (fun _ => 2) 2 := by
  unfold parseWtf
  cost_step Paid.toEnd (next_costs s)
  rintro (_ | t) s' _
  · cost_end
  dsimp only
  split
  · cost_step Paid.toEnd (empty_costs s')
    intro _ s' _
    cost_step parseOmgs_costs hb n n s'
    intro _ s' _
    cost_step parseOmgWtf_costs hb s'
    intro _ s' _
    cost_step Paid.toEnd (next_costs s')
    rintro (_ | u) s' _
    · cost_end
    dsimp only
    split
    · cost_step Paid.toEnd (empty_costs s')
      intro _ s' _
      cost_end
    · cost_end
  · cost_end

theorem parseORly_costs (n : Nat) (t : Token) (s : Stmts) : CostsEnd (parseORly block n t) s (fun _ => 2) 2 := by
  unfold parseORly
  cost_step Paid.toEnd (next_costs s)
  rintro (_ | t) s' _
  · cost_end
  dsimp only
  split
  · cost_step Paid.toEnd (empty_costs s')
    intro _ s' _
    cost_step parseYaRly_costs hb s'
    intro _ s' _
    cost_step parseMebbes_costs hb n n s'
    intro _ s' _
    cost_step parseNoWai_costs hb s'
    intro _ s' _
    cost_step Paid.toEnd (next_costs s')
    rintro (_ | u) s' _
    · cost_end
    dsimp only
    split <;> cost_end
  · cost_end

theorem parseStatement_costs (n : Nat) (t : Token) (s : Stmts) :
    CostsEnd (parseStatement block n t) s (fun _ => 2) 2 := by
  unfold parseStatement
  split
  · exact Paid.toEnd (parseAccessStatement_costs n t s)
  split
  · cost_step Paid.toEnd (IHasA.parse_costs n t s)
    intro _ s' _
    cost_end
  · cost_step Paid.toEnd (Visible.parse_costs n t s)
    intro _ s' _
    cost_end
  · cost_step Paid.toEnd (Gimmeh.parse_costs n t s)
    intro _ s' _
    cost_end
  · cost_step Paid.toEnd (FoundYr.parse_costs n t s)
    intro _ s' _
    cost_end
  · cost_step Paid.toEnd (Hai.parse_costs t s)
    intro _ s' _
    cost_end
  · cost_end
  · cost_end
  · cost_step Paid.toEnd (IIz.parse_costs n t s)
    intro _ s' _
    cost_end
  · exact parseImInYr_costs hb n t s
  · exact parseHowIzI_costs hb n t s
  · exact parseWtf_costs hb n t s
  · exact parseORly_costs hb n t s
  · cost_step Paid.toEnd (parseExpr_costs n t s)
    intro _ s' _
    cost_end


end

/-- The rest of a round of the loop, and the rest of the loop. -/
theorem blockTail_costs {n : Nat} {stop : Token → Bool}
    (ih : ∀ stop s, CostsEnd (parseBlock n stop) s (fun _ => blockCost s) (blockCost s)) (nodes : Block) (s : Stmts) :
    CostsEnd (do
      let errors ← do
        match ← nextStatementShouldBeEmpty.toResult with
        | .ok _ => pure []
        | .error e => pure [Node.astError e]
      match ← peek with
      | none => pure (nodes ++ errors)
      | some token =>
        if stop token then pure (nodes ++ errors)
        else
          let more ← parseBlock n stop
          pure (nodes ++ errors ++ more)) s (fun _ => 3) 3 := by
  cost_step Paid.toEnd (empty_costs s).toResult
  have rest : ∀ (errors : Block) (s : Stmts), CostsEnd (do
      match ← peek with
      | none => pure (nodes ++ errors)
      | some token =>
        if stop token then pure (nodes ++ errors)
        else
          let more ← parseBlock n stop
          pure (nodes ++ errors ++ more)) s (fun _ => 1) 1 := by
    intro errors s
    cost_step Paid.toEnd (peek_costs s)
    rintro (_ | t) s' hp
    · cost_end
    have hc := peek_cur hp
    dsimp only
    split
    · cost_end
    · have ih := ih stop s'
      simp only [blockCost, if_neg hc] at ih
      cost_step ih
      intro _ s' _
      cost_end
  rintro (_ | _) s' _
  · exact (rest _ s').mono (fun _ => by omega) (by omega)
  · exact (rest _ s').mono (fun _ => by omega) (by omega)

theorem parseBlock_costs (n : Nat) (stop : Token → Bool) (s : Stmts) :
    CostsEnd (parseBlock n stop) s (fun _ => blockCost s) (blockCost s) := by
  induction n generalizing stop s with
  | zero => exact Paid.toEnd (Costs.outOfFuel (by unfold blockCost; split <;> omega))
  | succ n ih =>
    have hs := parseStatement_costs ih n
    obtain ⟨cur, later⟩ := s
    unfold parseBlock
    cases cur with
    | nil =>
      have : blockCost ⟨[], later⟩ = 4 := if_pos rfl
      simp only [this]
      cost_step Paid.toEnd (next_costs _)
      rintro (_ | u) s' h
      · exact (blockTail_costs ih [] s').mono (fun _ => by simp [nextCost]) (by simp only [nextCost]; omega)
      · cases h
    | cons t cur =>
      have : blockCost ⟨t :: cur, later⟩ = 0 := if_neg (by simp)
      simp only [this]
      cost_step Paid.toEnd (next_costs _)
      rintro (_ | u) s' h
      · cases h
      cost_step (hs u s').toResult
      rintro (_ | _) s' _
      · exact (blockTail_costs ih _ s').mono (fun _ => by simp [nextCost]) (by simp only [nextCost]; omega)
      · exact (blockTail_costs ih _ s').mono (fun _ => by simp [nextCost]) (by simp only [nextCost]; omega)

/-- A single token cannot take the two calls more. -/
theorem parseBlock_one (n : Nat) (stop : Token → Bool) (t : Token) : cost (parseBlock n stop) ⟨[t], []⟩ ≤ 6 := by
  cases n with
  | zero => exact Nat.zero_le _
  | succ n =>
    have ih := parseBlock_costs n
    have hs := parseStatement_costs ih n
    have h0 : Stmts.credit2 ⟨[], []⟩ = -2 := rfl
    have first : Paid Stmts.credit2 (-1) next ⟨[t], []⟩ (fun _ => 0) 0 := by
      show (1 : Int) + Stmts.credit2 ⟨[], []⟩ ≤ -1 + 0
      omega
    have all : Paid Stmts.credit2 (-1) (parseBlock (n + 1) stop) ⟨[t], []⟩ (fun _ => 5) 5 := by
      unfold parseBlock
      cost_step first
      rintro (_ | u) s' h
      · cases h
      cost_step (hs u s').toResult
      rintro (_ | _) s' _
      · exact (blockTail_costs ih _ s').mono (fun _ => by omega) (by omega)
      · exact (blockTail_costs ih _ s').mono (fun _ => by omega) (by omega)
    unfold Paid at all
    cases hr : exec (parseBlock (n + 1) stop) ⟨[t], []⟩ with
    | ok a s' => have := s'.credit2_le; simp only [hr] at all; omega
    | err a s' => have := s'.credit2_le; simp only [hr] at all; omega
    | panic => simp only [hr] at all; omega
    | outOfFuel => simp only [hr] at all; omega

/-- The calls are at most six for every token and two more, and four more for an empty first statement. -/
theorem parseBlock_calls (n : Nat) (stop : Token → Bool) (s : Stmts) :
    (cost (parseBlock n stop) s : Int) ≤ s.credit2 + 2 + blockCost s := by
  have h := parseBlock_costs n stop s
  unfold CostsEnd Paid at h
  cases hr : exec (parseBlock n stop) s with
  | ok a s' =>
    have := s'.credit2_le
    simp only [hr] at *; omega
  | err a s' =>
    have := s'.credit2_le
    simp only [hr] at *; omega
  | panic => have : Stmts.credit2 ⟨[], []⟩ = -2 := rfl; simp only [hr] at *; omega
  | outOfFuel => have : Stmts.credit2 ⟨[], []⟩ = -2 := rfl; simp only [hr] at *; omega

end Lol
