import Verif.Parser.Tokens
import Verif.Parser.ExprSpec

/-!
# Lemmas on the token iterators and on `range()`

`rem` lists the tokens that an iterator has still to deliver, `cost` is a recursion bound that is enough for all
later calls.
-/

namespace Lol

/-- One call delivers the first of the remaining tokens. -/
def Delivers {σ : Type} (rem : σ → List Token) (cost : σ → Nat) (it : σ) (r : Out (Option Token × σ)) : Prop :=
  ∃ it', r = .ok ((rem it).head?, it') ∧ rem it' = (rem it).tail ∧ cost it' ≤ cost it

theorem calls_eq {σ : Type} {rem : σ → List Token} {cost : σ → Nat} {next : σ → Out (Option Token × σ)} {n : Nat}
    (h : ∀ it, cost it ≤ n → Delivers rem cost it (next it)) (k : Nat) (it : σ) (hn : cost it ≤ n) :
    calls next k it = .ok ((List.range k).map fun i => (rem it)[i]?) := by
  induction k generalizing it with
  | zero => rfl
  | succ k ih =>
    obtain ⟨it', h1, h2, h3⟩ := h it hn
    rw [calls, h1]
    dsimp only
    rw [ih it' (by omega), h2, List.range_succ_eq_map]
    simp only [List.map_cons, List.map_map, Out.ok.injEq, List.cons.injEq]
    constructor
    · cases rem it <;> rfl
    · apply List.map_congr_left
      intro i _
      cases rem it <;> simp

/-! ## Identifiers, slots and variable accesses -/

def IdentifierIter.rem (it : IdentifierIter) : List Token :=
  match it.state with
  | .start => it.identifier.toks
  | .hasUsedSrs => [it.identifier.name]
  | .done => []

theorem IdentifierIter.next_rem (it : IdentifierIter) :
    it.next.1 = it.rem.head? ∧ it.next.2.rem = it.rem.tail := by
  obtain ⟨⟨name, srs⟩, state⟩ := it
  cases state <;> cases srs <;> exact ⟨rfl, rfl⟩

def SlotIter.rem (it : SlotIter) : List Token :=
  match it.state with
  | .slot => it.accessSlot.toks
  | .identifier sub => sub.rem
  | .stop => []

theorem SlotIter.next_rem (it : SlotIter) :
    it.next.1 = it.rem.head? ∧ it.next.2.rem = it.rem.tail := by
  obtain ⟨slot, state⟩ := it
  cases state with
  | slot => exact ⟨rfl, rfl⟩
  | stop => exact ⟨rfl, rfl⟩
  | identifier sub =>
    have := sub.next_rem
    simp only [SlotIter.next, SlotIter.rem]
    rcases h : sub.next with ⟨t, sub'⟩
    rw [h] at this
    cases hr : sub.rem with
    | nil => simp [hr] at this; simp [this.1]
    | cons a r => simp [hr] at this; simp [this]

def SlotIter.remOpt : Option SlotIter → List Token
  | none => []
  | some it => it.rem

theorem SlotIter.nextOpt_rem (it : Option SlotIter) :
    (SlotIter.nextOpt it).1 = (SlotIter.remOpt it).head? ∧
      SlotIter.remOpt (SlotIter.nextOpt it).2 = (SlotIter.remOpt it).tail := by
  cases it with
  | none => exact ⟨rfl, rfl⟩
  | some it => exact it.next_rem

def AccessIter.rem (it : AccessIter) : List Token :=
  match it.state with
  | .start => it.variableAccess.toks
  | .identifier sub => sub.rem ++ it.variableAccess.accesses.flatMap (·.toks)
  | .access i sub => SlotIter.remOpt sub ++ (it.variableAccess.accesses.drop i).flatMap (·.toks)
  | .done => []

theorem AccessIter.next_access (v : VariableAccess) (i : Nat) (sub : Option SlotIter) (n : Nat) (hn : 2 ≤ n) :
    Delivers AccessIter.rem (fun _ => 4) ⟨v, .access i sub⟩ (AccessIter.next n ⟨v, .access i sub⟩) := by
  obtain ⟨n, rfl⟩ : ∃ k, n = k + 2 := ⟨n - 2, by omega⟩
  have h := SlotIter.nextOpt_rem sub
  simp only [Delivers, AccessIter.next, AccessIter.rem]
  rcases h' : SlotIter.nextOpt sub with ⟨t, sub'⟩
  rw [h'] at h
  cases hr : SlotIter.remOpt sub with
  | cons a r => simp [hr] at h; simp [h]
  | nil =>
    simp [hr] at h
    simp only [h.1, List.nil_append]
    cases hs : v.accesses[i]? with
    | none =>
      have : v.accesses.length ≤ i := by simpa using hs
      simp [List.drop_eq_nil_of_le this]
    | some slot =>
      obtain ⟨hi, rfl⟩ := List.getElem?_eq_some_iff.1 hs
      rw [List.drop_eq_getElem_cons hi]
      exact ⟨_, rfl, rfl, Nat.le_refl _⟩

theorem AccessIter.next_identifier (v : VariableAccess) (sub : IdentifierIter) (n : Nat) (hn : 3 ≤ n) :
    Delivers AccessIter.rem (fun _ => 4) ⟨v, .identifier sub⟩ (AccessIter.next n ⟨v, .identifier sub⟩) := by
  obtain ⟨n, rfl⟩ : ∃ k, n = k + 1 := ⟨n - 1, by omega⟩
  have h := sub.next_rem
  rcases h' : sub.next with ⟨t, sub'⟩
  rw [h'] at h
  cases hr : sub.rem with
  | cons a r => simp [hr] at h; simp [Delivers, AccessIter.next, AccessIter.rem, h', hr, h]
  | nil =>
    simp [hr] at h
    have h2 := AccessIter.next_access v 0 none n (by omega)
    rw [AccessIter.next]
    simp only [h', h.1]
    simpa [Delivers, AccessIter.rem, hr, SlotIter.remOpt] using h2

theorem AccessIter.next_step (it : AccessIter) (n : Nat) (hn : 4 ≤ n) :
    Delivers AccessIter.rem (fun _ => 4) it (AccessIter.next n it) := by
  obtain ⟨v, state⟩ := it
  cases state with
  | access i sub => exact AccessIter.next_access v i sub n (by omega)
  | identifier sub => exact AccessIter.next_identifier v sub n (by omega)
  | done =>
    obtain ⟨n, rfl⟩ : ∃ k, n = k + 1 := ⟨n - 1, by omega⟩
    exact ⟨_, rfl, rfl, Nat.le_refl _⟩
  | start =>
    obtain ⟨n, rfl⟩ : ∃ k, n = k + 1 := ⟨n - 1, by omega⟩
    exact AccessIter.next_identifier v v.identifier.tokens n (by omega)

/-! ## Values -/

def ValueIter.rem (it : ValueIter) : List Token :=
  match it.state with
  | .start => it.value.toks
  | .variableAccess sub => sub.rem
  | .stop => []

theorem ValueIter.next_step (it : ValueIter) (n : Nat) (hn : 6 ≤ n) :
    Delivers ValueIter.rem (fun _ => 6) it (ValueIter.next n it) := by
  obtain ⟨v, state⟩ := it
  obtain ⟨n, rfl⟩ : ∃ k, n = k + 2 := ⟨n - 2, by omega⟩
  have key : ∀ sub m, 4 ≤ m →
      Delivers ValueIter.rem (fun _ => 6) ⟨v, .variableAccess sub⟩ (ValueIter.next (m + 1) ⟨v, .variableAccess sub⟩) := by
    intro sub m hm
    obtain ⟨sub', h1, h2, -⟩ := sub.next_step m hm
    rw [ValueIter.next]
    simp only [h1]
    obtain ⟨m, rfl⟩ : ∃ k, m = k + 1 := ⟨m - 1, by omega⟩
    cases hr : sub.rem with
    | nil => simp [Delivers, ValueIter.rem, hr, ValueIter.next]
    | cons a r => simp [hr] at h2; simp [Delivers, ValueIter.rem, hr, h2]
  cases state with
  | stop => exact ⟨_, rfl, rfl, Nat.le_refl _⟩
  | variableAccess sub => exact key sub (n + 1) (by omega)
  | start =>
    cases v with
    | literal t => exact ⟨_, rfl, rfl, Nat.le_refl _⟩
    | variableAccess v => exact key v.tokens n (by omega)

/-! ## Expressions -/

mutual

def Expr.depth : Expr → Nat
  | .value _ => 0
  | .unary _ e => e.depth + 1
  | .binary _ l _ r => max l.depth r.depth + 1
  | .nary _ es _ => depthOperands es + 1

def depthOperands : List Operand → Nat
  | [] => 0
  | .mk e _ :: es => max e.depth (depthOperands es)

end

theorem depth_le_depthOperands {es : List Operand} {e : Expr} {an : Option Token} (h : .mk e an ∈ es) :
    e.depth ≤ depthOperands es := by
  induction es with
  | nil => cases h
  | cons o es ih =>
    obtain ⟨e', an'⟩ := o
    rw [depthOperands]
    rcases List.mem_cons.1 h with h | h
    · cases h; omega
    · have := ih h; omega

mutual

def ExprIter.rem : ExprIter → List Token
  | .mk e .start => e.toks
  | .mk _ (.binary it) => it.rem
  | .mk _ (.unary it) => it.rem
  | .mk _ (.nary it) => it.rem
  | .mk _ (.value it) => it.rem
  | .mk _ .stop => []

def BinaryIter.rem : BinaryIter → List Token
  | .mk op l an r .start => op.token :: (l.toks ++ (an.toList ++ r.toks))
  | .mk _ _ an r (.left it) => it.rem ++ (an.toList ++ r.toks)
  | .mk _ _ an r .anToken => an.toList ++ r.toks
  | .mk _ _ _ _ (.right it) => it.rem
  | .mk _ _ _ _ .stop => []

def UnaryIter.rem : UnaryIter → List Token
  | .mk op e .start => op.token :: e.toks
  | .mk _ _ (.operand it) => it.rem
  | .mk _ _ .stop => []

def NaryIter.rem : NaryIter → List Token
  | .mk op es mkay .start => op.token :: (toksOperands es ++ mkay.toList)
  | .mk _ es mkay (.operandNone i) => toksOperands (es.drop i) ++ mkay.toList
  | .mk _ es mkay (.operandSome i it) => it.rem ++ (toksOperands (es.drop i) ++ mkay.toList)
  | .mk _ _ mkay .mkay => mkay.toList
  | .mk _ _ _ .stop => []

def OperandIter.rem : OperandIter → List Token
  | .mk (.mk _ an) (.expression it) => it.rem ++ an.toList
  | .mk (.mk _ an) .anToken => an.toList
  | .mk _ .stop => []

end

mutual

def ExprIter.cost : ExprIter → Nat
  | .mk e .start => 10 * e.depth + 10
  | .mk e (.binary it) => max (10 * e.depth + 10) (it.cost + 1)
  | .mk e (.unary it) => max (10 * e.depth + 10) (it.cost + 1)
  | .mk e (.nary it) => max (10 * e.depth + 10) (it.cost + 1)
  | .mk e (.value _) => 10 * e.depth + 10
  | .mk e .stop => 10 * e.depth + 10

def BinaryIter.cost : BinaryIter → Nat
  | .mk _ l _ r (.left it) => max (max (10 * l.depth + 10) (10 * r.depth + 10)) it.cost + 3
  | .mk _ l _ r (.right it) => max (max (10 * l.depth + 10) (10 * r.depth + 10)) it.cost + 3
  | .mk _ l _ r .start => max (10 * l.depth + 10) (10 * r.depth + 10) + 3
  | .mk _ l _ r .anToken => max (10 * l.depth + 10) (10 * r.depth + 10) + 3
  | .mk _ l _ r .stop => max (10 * l.depth + 10) (10 * r.depth + 10) + 3

def UnaryIter.cost : UnaryIter → Nat
  | .mk _ e (.operand it) => max (10 * e.depth + 10) it.cost + 1
  | .mk _ e .start => 10 * e.depth + 10 + 1
  | .mk _ e .stop => 10 * e.depth + 10 + 1

def NaryIter.cost : NaryIter → Nat
  | .mk _ es _ (.operandSome _ it) => max (10 * depthOperands es + 11) it.cost + 3
  | .mk _ es _ .start => 10 * depthOperands es + 10 + 4
  | .mk _ es _ (.operandNone _) => 10 * depthOperands es + 10 + 4
  | .mk _ es _ .mkay => 10 * depthOperands es + 10 + 4
  | .mk _ es _ .stop => 10 * depthOperands es + 10 + 4

def OperandIter.cost : OperandIter → Nat
  | .mk (.mk e _) (.expression it) => max (10 * e.depth + 10) it.cost + 1
  | .mk (.mk e _) .anToken => 10 * e.depth + 10 + 1
  | .mk (.mk e _) .stop => 10 * e.depth + 10 + 1

end

/-- The state `start` delivers the first token at once. -/
theorem ExprIter.next_start (e : Expr) (n : Nat) (hn : 8 ≤ n) :
    Delivers ExprIter.rem ExprIter.cost (.mk e .start) (ExprIter.next n (.mk e .start)) := by
  obtain ⟨n, rfl⟩ : ∃ k, n = k + 3 := ⟨n - 3, by omega⟩
  cases e with
  | binary op l an r =>
    refine ⟨_, rfl, rfl, ?_⟩
    simp only [ExprIter.cost, BinaryIter.cost, Expr.depth, Expr.tokens]
    omega
  | unary op e =>
    refine ⟨_, rfl, rfl, ?_⟩
    simp only [ExprIter.cost, UnaryIter.cost, Expr.depth, Expr.tokens]
    omega
  | nary op es mkay =>
    refine ⟨_, rfl, rfl, ?_⟩
    simp only [ExprIter.cost, NaryIter.cost, Expr.depth]
    omega
  | value v =>
    obtain ⟨it', h1, h2, -⟩ := v.tokens.next_step (n + 1) (by omega)
    rw [ExprIter.next, ExprIter.next]
    simp only [h1]
    have hv : v.tokens.rem = v.toks := rfl
    rw [hv] at h2 ⊢
    cases hr : v.toks with
    | nil => simp [Delivers, ExprIter.rem, ExprIter.cost, Expr.toks, hr]
    | cons a r => simp [hr] at h2; simp [Delivers, ExprIter.rem, ExprIter.cost, Expr.toks, hr, h2]

theorem ExprIter.toks_ne_nil (e : Expr) : e.toks ≠ [] := by
  cases e with
  | value v =>
    cases v with
    | literal t => simp [Expr.toks, ExprValue.toks]
    | variableAccess v => simp [Expr.toks, ExprValue.toks, VariableAccess.toks, Identifier.toks]
  | _ => simp [Expr.toks]

theorem OperandIter.next_start (o : Operand) (n : Nat) (hn : 9 ≤ n) :
    ∃ t r it', o.tokens.rem = t :: r ∧ OperandIter.next n o.tokens = .ok (some t, it') ∧ it'.rem = r ∧
      it'.cost ≤ o.tokens.cost := by
  obtain ⟨e, an⟩ := o
  obtain ⟨n, rfl⟩ : ∃ k, n = k + 1 := ⟨n - 1, by omega⟩
  obtain ⟨it', h1, h2, h3⟩ := ExprIter.next_start e n (by omega)
  cases hr : e.toks with
  | nil => exact absurd hr (ExprIter.toks_ne_nil e)
  | cons t r =>
    simp only [ExprIter.rem, hr, List.head?_cons, List.tail_cons] at h1 h2
    refine ⟨t, r ++ an.toList, .mk (.mk e an) (.expression it'), ?_, ?_, ?_, ?_⟩
    · simp [Operand.tokens, OperandIter.rem, Expr.tokens, ExprIter.rem, hr]
    · simp [Operand.tokens, OperandIter.next, Expr.tokens, h1]
    · simp [OperandIter.rem, h2]
    · simp only [Operand.tokens, OperandIter.cost, Expr.tokens]
      omega

theorem toksOperands_drop {es : List Operand} {i : Nat} {o : Operand} (h : es[i]? = some o) :
    toksOperands (es.drop i) = o.tokens.rem ++ toksOperands (es.drop (i + 1)) := by
  obtain ⟨hi, rfl⟩ := List.getElem?_eq_some_iff.1 h
  rw [List.drop_eq_getElem_cons hi]
  cases es[i] with
  | mk e an => simp [toksOperands, Operand.tokens, OperandIter.rem, Expr.tokens, ExprIter.rem]

/-- The step from one operand to the next, or to `MKAY`. -/
theorem NaryIter.next_operand (op : NaryOpt) (es : List Operand) (mkay : Option Token) (i : Nat) (n : Nat)
    (hn : 10 ≤ n) :
    ∃ it', (match es[i]? with
        | some e => NaryIter.next n (.mk op es mkay (.operandSome (i + 1) e.tokens))
        | none => NaryIter.next n (.mk op es mkay .mkay)) =
          .ok ((toksOperands (es.drop i) ++ mkay.toList).head?, it') ∧
      it'.rem = (toksOperands (es.drop i) ++ mkay.toList).tail ∧ it'.cost ≤ 10 * depthOperands es + 10 + 4 := by
  obtain ⟨n, rfl⟩ : ∃ k, n = k + 1 := ⟨n - 1, by omega⟩
  cases h : es[i]? with
  | none =>
    have : es.length ≤ i := by simpa using h
    rw [List.drop_eq_nil_of_le this]
    refine ⟨.mk op es mkay .stop, ?_, ?_, Nat.le_refl _⟩
    · cases mkay <;> simp [NaryIter.next, toksOperands]
    · cases mkay <;> simp [NaryIter.rem, toksOperands]
  | some o =>
    obtain ⟨t, r, it', h1, h2, h3, h4⟩ := OperandIter.next_start o n (by omega)
    rw [toksOperands_drop h, h1]
    refine ⟨.mk op es mkay (.operandSome (i + 1) it'), ?_, ?_, ?_⟩
    · simp [NaryIter.next, h2]
    · simp [NaryIter.rem, h3]
    · obtain ⟨e, an⟩ := o
      have := depth_le_depthOperands (List.mem_of_getElem? h)
      simp only [Operand.tokens, OperandIter.cost, Expr.tokens, ExprIter.cost] at h4
      simp only [NaryIter.cost]
      omega

theorem BinaryIter.next_an (op : BinaryOpt) (l : Expr) (an : Option Token) (r : Expr) (n : Nat) (hn : 10 ≤ n) :
    ∃ it', BinaryIter.next n (.mk op l an r .anToken) = .ok ((an.toList ++ r.toks).head?, it') ∧
      it'.rem = (an.toList ++ r.toks).tail ∧ it'.cost ≤ max (10 * l.depth + 10) (10 * r.depth + 10) + 3 := by
  obtain ⟨n, rfl⟩ : ∃ k, n = k + 2 := ⟨n - 2, by omega⟩
  cases an with
  | some t =>
    refine ⟨_, rfl, rfl, ?_⟩
    simp only [BinaryIter.cost, Expr.tokens, ExprIter.cost]
    omega
  | none =>
    obtain ⟨it', h1, h2, h3⟩ := ExprIter.next_start r n (by omega)
    cases hr : r.toks with
    | nil => exact absurd hr (ExprIter.toks_ne_nil r)
    | cons t ts =>
      simp only [ExprIter.rem, hr, List.head?_cons, List.tail_cons, ExprIter.cost] at h1 h2 h3
      refine ⟨.mk op l none r (.right it'), ?_, ?_, ?_⟩
      · simp [BinaryIter.next, Expr.tokens, h1]
      · simp [BinaryIter.rem, h2]
      · simp only [BinaryIter.cost]; omega

mutual

theorem ExprIter.next_step : (it : ExprIter) → (n : Nat) → it.cost ≤ n →
    Delivers ExprIter.rem ExprIter.cost it (ExprIter.next n it)
  | .mk e .start, n, hn => ExprIter.next_start e n (by simp only [ExprIter.cost] at hn; omega)
  | .mk e .stop, n, hn => by
    obtain ⟨n, rfl⟩ : ∃ k, n = k + 1 := ⟨n - 1, by simp only [ExprIter.cost] at hn; omega⟩
    exact ⟨_, rfl, rfl, Nat.le_refl _⟩
  | .mk e (.value it), n, hn => by
    simp only [ExprIter.cost] at hn
    obtain ⟨n, rfl⟩ : ∃ k, n = k + 1 := ⟨n - 1, by omega⟩
    obtain ⟨it', h1, h2, -⟩ := it.next_step n (by omega)
    rw [ExprIter.next, h1]
    cases hr : it.rem with
    | nil => simp [Delivers, ExprIter.rem, ExprIter.cost, hr]
    | cons a r => simp [hr] at h2; simp [Delivers, ExprIter.rem, ExprIter.cost, hr, h2]
  | .mk e (.binary it), n, hn => by
    simp only [ExprIter.cost] at hn
    obtain ⟨n, rfl⟩ : ∃ k, n = k + 1 := ⟨n - 1, by omega⟩
    obtain ⟨it', h1, h2, h3⟩ := BinaryIter.next_step it n (by omega)
    rw [ExprIter.next, h1]
    cases hr : it.rem with
    | nil => simp [Delivers, ExprIter.rem, ExprIter.cost, hr]; omega
    | cons a r => simp [hr] at h2; simp [Delivers, ExprIter.rem, ExprIter.cost, hr, h2]; omega
  | .mk e (.unary it), n, hn => by
    simp only [ExprIter.cost] at hn
    obtain ⟨n, rfl⟩ : ∃ k, n = k + 1 := ⟨n - 1, by omega⟩
    obtain ⟨it', h1, h2, h3⟩ := UnaryIter.next_step it n (by omega)
    rw [ExprIter.next, h1]
    cases hr : it.rem with
    | nil => simp [Delivers, ExprIter.rem, ExprIter.cost, hr]; omega
    | cons a r => simp [hr] at h2; simp [Delivers, ExprIter.rem, ExprIter.cost, hr, h2]; omega
  | .mk e (.nary it), n, hn => by
    simp only [ExprIter.cost] at hn
    obtain ⟨n, rfl⟩ : ∃ k, n = k + 1 := ⟨n - 1, by omega⟩
    obtain ⟨it', h1, h2, h3⟩ := NaryIter.next_step it n (by omega)
    rw [ExprIter.next, h1]
    cases hr : it.rem with
    | nil => simp [Delivers, ExprIter.rem, ExprIter.cost, hr]; omega
    | cons a r => simp [hr] at h2; simp [Delivers, ExprIter.rem, ExprIter.cost, hr, h2]; omega

theorem BinaryIter.next_step : (it : BinaryIter) → (n : Nat) → it.cost ≤ n →
    Delivers BinaryIter.rem BinaryIter.cost it (BinaryIter.next n it)
  | .mk op l an r .start, n, hn => by
    obtain ⟨n, rfl⟩ : ∃ k, n = k + 1 := ⟨n - 1, by simp only [BinaryIter.cost] at hn; omega⟩
    refine ⟨_, rfl, rfl, ?_⟩
    simp only [BinaryIter.cost, Expr.tokens, ExprIter.cost]
    omega
  | .mk op l an r .stop, n, hn => by
    obtain ⟨n, rfl⟩ : ∃ k, n = k + 1 := ⟨n - 1, by simp only [BinaryIter.cost] at hn; omega⟩
    exact ⟨_, rfl, rfl, Nat.le_refl _⟩
  | .mk op l an r .anToken, n, hn => by
    simp only [BinaryIter.cost] at hn
    obtain ⟨it', h1, h2, h3⟩ := BinaryIter.next_an op l an r n (by omega)
    exact ⟨it', h1, h2, by simpa only [BinaryIter.cost] using h3⟩
  | .mk op l an r (.right it), n, hn => by
    simp only [BinaryIter.cost] at hn
    obtain ⟨n, rfl⟩ : ∃ k, n = k + 2 := ⟨n - 2, by omega⟩
    obtain ⟨it', h1, h2, h3⟩ := ExprIter.next_step it (n + 1) (by omega)
    rw [BinaryIter.next, h1]
    cases hr : it.rem with
    | nil => simp [Delivers, BinaryIter.rem, BinaryIter.cost, BinaryIter.next, hr]; omega
    | cons a r => simp [hr] at h2; simp [Delivers, BinaryIter.rem, BinaryIter.cost, hr, h2]; omega
  | .mk op l an r (.left it), n, hn => by
    simp only [BinaryIter.cost] at hn
    obtain ⟨n, rfl⟩ : ∃ k, n = k + 2 := ⟨n - 2, by omega⟩
    obtain ⟨it', h1, h2, h3⟩ := ExprIter.next_step it (n + 1) (by omega)
    rw [BinaryIter.next, h1]
    cases hr : it.rem with
    | nil =>
      obtain ⟨it'', h4, h5, h6⟩ := BinaryIter.next_an op l an r (n + 1) (by omega)
      refine ⟨it'', ?_, ?_, ?_⟩
      · simpa [BinaryIter.rem, hr] using h4
      · simpa [BinaryIter.rem, hr] using h5
      · simp only [BinaryIter.cost]; omega
    | cons a r => simp [hr] at h2; simp [Delivers, BinaryIter.rem, BinaryIter.cost, hr, h2]; omega

theorem UnaryIter.next_step : (it : UnaryIter) → (n : Nat) → it.cost ≤ n →
    Delivers UnaryIter.rem UnaryIter.cost it (UnaryIter.next n it)
  | .mk op e .start, n, hn => by
    obtain ⟨n, rfl⟩ : ∃ k, n = k + 1 := ⟨n - 1, by simp only [UnaryIter.cost] at hn; omega⟩
    refine ⟨_, rfl, rfl, ?_⟩
    simp only [UnaryIter.cost, Expr.tokens, ExprIter.cost]
    omega
  | .mk op e .stop, n, hn => by
    obtain ⟨n, rfl⟩ : ∃ k, n = k + 1 := ⟨n - 1, by simp only [UnaryIter.cost] at hn; omega⟩
    exact ⟨_, rfl, rfl, Nat.le_refl _⟩
  | .mk op e (.operand it), n, hn => by
    simp only [UnaryIter.cost] at hn
    obtain ⟨n, rfl⟩ : ∃ k, n = k + 1 := ⟨n - 1, by omega⟩
    obtain ⟨it', h1, h2, h3⟩ := ExprIter.next_step it n (by omega)
    rw [UnaryIter.next, h1]
    cases hr : it.rem with
    | nil => simp [Delivers, UnaryIter.rem, UnaryIter.cost, hr]; omega
    | cons a r => simp [hr] at h2; simp [Delivers, UnaryIter.rem, UnaryIter.cost, hr, h2]; omega

theorem NaryIter.next_step : (it : NaryIter) → (n : Nat) → it.cost ≤ n →
    Delivers NaryIter.rem NaryIter.cost it (NaryIter.next n it)
  | .mk op es mkay .start, n, hn => by
    obtain ⟨n, rfl⟩ : ∃ k, n = k + 1 := ⟨n - 1, by simp only [NaryIter.cost] at hn; omega⟩
    exact ⟨_, rfl, rfl, Nat.le_refl _⟩
  | .mk op es mkay .stop, n, hn => by
    obtain ⟨n, rfl⟩ : ∃ k, n = k + 1 := ⟨n - 1, by simp only [NaryIter.cost] at hn; omega⟩
    exact ⟨_, rfl, rfl, Nat.le_refl _⟩
  | .mk op es mkay .mkay, n, hn => by
    obtain ⟨n, rfl⟩ : ∃ k, n = k + 1 := ⟨n - 1, by simp only [NaryIter.cost] at hn; omega⟩
    refine ⟨.mk op es mkay .stop, ?_, ?_, Nat.le_refl _⟩
    · cases mkay <;> rfl
    · cases mkay <;> rfl
  | .mk op es mkay (.operandNone i), n, hn => by
    simp only [NaryIter.cost] at hn
    obtain ⟨n, rfl⟩ : ∃ k, n = k + 1 := ⟨n - 1, by omega⟩
    rw [NaryIter.next]
    exact NaryIter.next_operand op es mkay i n (by omega)
  | .mk op es mkay (.operandSome i it), n, hn => by
    simp only [NaryIter.cost] at hn
    obtain ⟨n, rfl⟩ : ∃ k, n = k + 1 := ⟨n - 1, by omega⟩
    obtain ⟨it', h1, h2, h3⟩ := OperandIter.next_step it n (by omega)
    rw [NaryIter.next, h1]
    cases hr : it.rem with
    | nil =>
      obtain ⟨it'', h4, h5, h6⟩ := NaryIter.next_operand op es mkay i n (by omega)
      refine ⟨it'', ?_, ?_, ?_⟩
      · simp only [NaryIter.rem, hr, List.nil_append, List.head?_nil]
        rw [← h4]
        cases es[i]? <;> rfl
      · simpa [NaryIter.rem, hr] using h5
      · simp only [NaryIter.cost]; omega
    | cons a r => simp [hr] at h2; simp [Delivers, NaryIter.rem, NaryIter.cost, hr, h2]; omega

theorem OperandIter.next_step : (it : OperandIter) → (n : Nat) → it.cost ≤ n →
    Delivers OperandIter.rem OperandIter.cost it (OperandIter.next n it)
  | .mk (.mk e an) .stop, n, hn => by
    obtain ⟨n, rfl⟩ : ∃ k, n = k + 1 := ⟨n - 1, by simp only [OperandIter.cost] at hn; omega⟩
    exact ⟨_, rfl, rfl, Nat.le_refl _⟩
  | .mk (.mk e an) .anToken, n, hn => by
    obtain ⟨n, rfl⟩ : ∃ k, n = k + 1 := ⟨n - 1, by simp only [OperandIter.cost] at hn; omega⟩
    refine ⟨.mk (.mk e an) .stop, ?_, ?_, Nat.le_refl _⟩
    · cases an <;> rfl
    · cases an <;> rfl
  | .mk (.mk e an) (.expression it), n, hn => by
    simp only [OperandIter.cost] at hn
    obtain ⟨n, rfl⟩ : ∃ k, n = k + 2 := ⟨n - 2, by omega⟩
    obtain ⟨it', h1, h2, h3⟩ := ExprIter.next_step it (n + 1) (by omega)
    rw [OperandIter.next, h1]
    cases hr : it.rem with
    | nil =>
      refine ⟨.mk (.mk e an) .stop, ?_, ?_, ?_⟩
      · cases an <;> simp [OperandIter.rem, OperandIter.next, hr]
      · cases an <;> simp [OperandIter.rem, hr]
      · simp only [OperandIter.cost]; omega
    | cons a r => simp [hr] at h2; simp [Delivers, OperandIter.rem, OperandIter.cost, hr, h2]; omega

end

/-! ## Assignments -/

def VariableAssignment.toks (a : VariableAssignment) : List Token :=
  a.variableAccess.toks ++ a.rToken :: a.expression.toks

def AssignmentIter.rem (it : AssignmentIter) : List Token :=
  match it.state with
  | .start => it.variableAssignment.toks
  | .variableAccess sub => sub.rem ++ it.variableAssignment.rToken :: it.variableAssignment.expression.toks
  | .rToken => it.variableAssignment.rToken :: it.variableAssignment.expression.toks
  | .expression sub => sub.rem
  | .stop => []

def AssignmentIter.cost (it : AssignmentIter) : Nat :=
  match it.state with
  | .expression sub => max (10 * it.variableAssignment.expression.depth + 10) sub.cost + 1
  | _ => 10 * it.variableAssignment.expression.depth + 10 + 1

theorem AssignmentIter.next_access (a : VariableAssignment) (sub : AccessIter) (n : Nat) (hn : 5 ≤ n) :
    Delivers AssignmentIter.rem AssignmentIter.cost ⟨a, .variableAccess sub⟩
      (AssignmentIter.next n ⟨a, .variableAccess sub⟩) := by
  obtain ⟨n, rfl⟩ : ∃ k, n = k + 2 := ⟨n - 2, by omega⟩
  obtain ⟨it', h1, h2, -⟩ := sub.next_step (n + 1) (by omega)
  rw [AssignmentIter.next]
  simp only [h1]
  cases hr : sub.rem with
  | nil =>
    simp [Delivers, AssignmentIter.next, AssignmentIter.rem, AssignmentIter.cost, hr, Expr.tokens, ExprIter.rem,
      ExprIter.cost]
  | cons t r => simp [hr] at h2; simp [Delivers, AssignmentIter.rem, AssignmentIter.cost, hr, h2]

theorem AssignmentIter.next_step (it : AssignmentIter) (n : Nat) (hn : it.cost ≤ n) :
    Delivers AssignmentIter.rem AssignmentIter.cost it (AssignmentIter.next n it) := by
  obtain ⟨a, state⟩ := it
  have h10 : 11 ≤ n := by
    cases state <;> simp only [AssignmentIter.cost] at hn <;> omega
  cases state with
  | variableAccess sub => exact AssignmentIter.next_access a sub n (by omega)
  | start =>
    obtain ⟨n, rfl⟩ : ∃ k, n = k + 1 := ⟨n - 1, by omega⟩
    obtain ⟨it', h1, h2, h3⟩ := AssignmentIter.next_access a a.variableAccess.tokens n (by omega)
    exact ⟨it', h1, h2, h3⟩
  | rToken =>
    obtain ⟨n, rfl⟩ : ∃ k, n = k + 1 := ⟨n - 1, by omega⟩
    refine ⟨_, rfl, rfl, ?_⟩
    simp [AssignmentIter.cost, Expr.tokens, ExprIter.cost]
  | stop =>
    obtain ⟨n, rfl⟩ : ∃ k, n = k + 1 := ⟨n - 1, by omega⟩
    exact ⟨_, rfl, rfl, Nat.le_refl _⟩
  | expression sub =>
    obtain ⟨n, rfl⟩ : ∃ k, n = k + 1 := ⟨n - 1, by omega⟩
    simp only [AssignmentIter.cost] at hn
    obtain ⟨it', h1, h2, h3⟩ := sub.next_step n (by omega)
    rw [AssignmentIter.next]
    simp only [h1]
    cases hr : sub.rem with
    | nil => simp [Delivers, AssignmentIter.rem, AssignmentIter.cost, hr]; omega
    | cons t r => simp [hr] at h2; simp [Delivers, AssignmentIter.rem, AssignmentIter.cost, hr, h2]; omega

/-! ## Ranges -/

/-- The range goes from the start of the first token to the end of the last one. -/
def SpansToks (r : Position × Position) (ts : List Token) : Prop :=
  ∃ first last, ts.head? = some first ∧ ts.getLast? = some last ∧ r = (first.range.start, last.range.stop)

theorem Identifier.range_spans (i : Identifier) : SpansToks i.range i.toks := by
  obtain ⟨name, srs⟩ := i
  cases srs with
  | none => exact ⟨name, name, rfl, rfl, rfl⟩
  | some t => exact ⟨t, name, rfl, rfl, rfl⟩

theorem VariableAccess.range_spans (v : VariableAccess) : SpansToks v.range v.toks := by
  obtain ⟨i, accesses⟩ := v
  obtain ⟨first, last, h1, h2, h3⟩ := i.range_spans
  rcases List.eq_nil_or_concat accesses with rfl | ⟨l, slot, rfl⟩
  · refine ⟨first, last, ?_, ?_, ?_⟩
    · simp [VariableAccess.toks, h1]
    · simp [VariableAccess.toks, h2]
    · simp [VariableAccess.range, h3]
  · obtain ⟨f', l', h4, h5, h6⟩ := slot.identifier.range_spans
    refine ⟨first, l', ?_, ?_, ?_⟩
    · simp [VariableAccess.toks, h1]
    · simp [VariableAccess.toks, VariableAccessSlot.toks, List.getLast?_append, List.getLast?_cons, h5]
    · simp [VariableAccess.range, h3, h6]

theorem getLast?_cons_append_of {a : Token} {l r : List Token} {x : Token} (h : r.getLast? = some x) :
    (a :: (l ++ r)).getLast? = some x := by
  simp [List.getLast?_cons, List.getLast?_append, h]

theorem lastAn_eq : (es : List Operand) → (o : Operand) → lastAn (es ++ [o]) = lastAn [o]
  | [], _ => rfl
  | [_], _ => by simp [lastAn]
  | _ :: b :: es, o => by
    have := lastAn_eq (b :: es) o
    simpa [lastAn] using this

theorem lastOperandStop_eq : (es : List Operand) → (o : Operand) →
    lastOperandStop (es ++ [o]) = lastOperandStop [o]
  | [], _ => rfl
  | [_], _ => by simp [lastOperandStop]
  | _ :: b :: es, o => by
    have := lastOperandStop_eq (b :: es) o
    simpa [lastOperandStop] using this

theorem toksOperands_append (es es' : List Operand) :
    toksOperands (es ++ es') = toksOperands es ++ toksOperands es' := by
  induction es with
  | nil => rfl
  | cons o es ih => obtain ⟨e, an⟩ := o; simp [toksOperands, ih]

mutual

theorem Expr.range_spans : (e : Expr) → SpansToks e.range e.toks
  | .value (.literal t) => ⟨t, t, rfl, rfl, rfl⟩
  | .value (.variableAccess v) => v.range_spans
  | .unary op e => by
    obtain ⟨f, l, -, h2, h3⟩ := Expr.range_spans e
    exact ⟨op.token, l, rfl, getLast?_cons_append_of (l := []) h2, by simp [Expr.range, h3]⟩
  | .binary op l an r => by
    obtain ⟨f, l', -, h2, h3⟩ := Expr.range_spans r
    refine ⟨op.token, l', rfl, ?_, by simp [Expr.range, h3]⟩
    rw [Expr.toks, ← List.append_assoc]
    exact getLast?_cons_append_of h2
  | .nary op es mkay => by
    have ih := rangeOperands_spans es
    cases mkay with
    | some m => exact ⟨op.token, m, rfl, getLast?_cons_append_of rfl, by simp [Expr.range]⟩
    | none =>
      rcases List.eq_nil_or_concat es with rfl | ⟨l, o, rfl⟩
      · exact ⟨op.token, op.token, rfl, by simp [Expr.toks, toksOperands],
          by simp [Expr.range, lastAn, lastOperandStop]⟩
      · obtain ⟨e, an⟩ := o
        cases an with
        | some t =>
          refine ⟨op.token, t, rfl, ?_, ?_⟩
          · rw [Expr.toks, List.concat_eq_append, toksOperands_append]
            simp [toksOperands, List.getLast?_cons, List.getLast?_append]
          · simp [Expr.range, List.concat_eq_append, lastAn_eq, lastAn]
        | none =>
          obtain ⟨f, l', -, h2, h3⟩ := ih e none (by simp)
          refine ⟨op.token, l', rfl, ?_, ?_⟩
          · rw [Expr.toks, List.concat_eq_append, toksOperands_append]
            simp [toksOperands, List.getLast?_cons, List.getLast?_append, h2]
          · simp [Expr.range, List.concat_eq_append, lastAn_eq, lastAn, lastOperandStop_eq, lastOperandStop, h3]

theorem rangeOperands_spans : (es : List Operand) → ∀ e an, .mk e an ∈ es → SpansToks e.range e.toks
  | [] => by simp
  | .mk e' an' :: es => by
    intro e an h
    rcases List.mem_cons.1 h with h | h
    · cases h; exact Expr.range_spans e'
    · exact rangeOperands_spans es e an h

end

theorem VariableAssignment.range_spans (a : VariableAssignment) : SpansToks a.range a.toks := by
  obtain ⟨f, l, h1, h2, h3⟩ := a.variableAccess.range_spans
  obtain ⟨f', l', h4, h5, h6⟩ := a.expression.range_spans
  refine ⟨f, l', ?_, ?_, ?_⟩
  · simp [VariableAssignment.toks, h1]
  · simp [VariableAssignment.toks, List.getLast?_append, List.getLast?_cons, h5]
  · simp [VariableAssignment.range, h3, h6]

end Lol
