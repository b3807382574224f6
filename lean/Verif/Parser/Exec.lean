import Verif.Parser.Split

/-! # Running programs on lists of statements: rewriting lemmas -/

namespace Lol

/-- Run a program on a list of statements. -/
abbrev exec {α : Type} (p : Prog α) (s : Stmts) : Res Stmts α := p.run Stmts.ops s

/-- Sequencing of outcomes. -/
def Res.andThen {σ α β : Type} : Res σ α → (α → σ → Res σ β) → Res σ β
  | .ok a s, f => f a s
  | .err e s, _ => .err e s
  | .panic p, _ => .panic p
  | .outOfFuel, _ => .outOfFuel

@[simp] theorem Res.andThen_ok {σ α β : Type} (a : α) (s : σ) (f : α → σ → Res σ β) :
    (Res.ok a s).andThen f = f a s := rfl
@[simp] theorem Res.andThen_err {σ α β : Type} (e : ASTError) (s : σ) (f : α → σ → Res σ β) :
    (Res.err e s).andThen f = .err e s := rfl
@[simp] theorem Res.andThen_panic {σ α β : Type} (p : PanicSite) (f : α → σ → Res σ β) :
    (Res.panic p).andThen f = .panic p := rfl
@[simp] theorem Res.andThen_outOfFuel {σ α β : Type} (f : α → σ → Res σ β) :
    (Res.outOfFuel).andThen f = .outOfFuel := rfl

/-- The `Result` of an outcome as a value. -/
def Res.toResult {σ α : Type} : Res σ α → Res σ (Except ASTError α)
  | .ok a s => .ok (.ok a) s
  | .err e s => .ok (.error e) s
  | .panic p => .panic p
  | .outOfFuel => .outOfFuel

@[simp] theorem Res.toResult_ok {σ α : Type} (a : α) (s : σ) :
    (Res.ok a s).toResult = .ok (.ok a) s := rfl
@[simp] theorem Res.toResult_err {σ α : Type} (e : ASTError) (s : σ) :
    (Res.err (α := α) e s).toResult = .ok (.error e) s := rfl
@[simp] theorem Res.toResult_panic {σ α : Type} (p : PanicSite) :
    (Res.panic (σ := σ) (α := α) p).toResult = .panic p := rfl
@[simp] theorem Res.toResult_outOfFuel {σ α : Type} :
    (Res.outOfFuel (σ := σ) (α := α)).toResult = .outOfFuel := rfl

theorem Prog.run_bind' {σ α β : Type} (I : IterOps σ) (p : Prog α) (f : α → Prog β) (s : σ) :
    (p.bind f).run I s = (p.run I s).andThen fun a s' => (f a).run I s' := by
  induction p generalizing s with
  | ret | err | panic | outOfFuel => rfl
  | next k ih => exact ih _ _
  | peek k ih => exact ih _ _
  | nextStatement k ih => exact ih _ _

@[simp] theorem exec_bind {α β : Type} (p : Prog α) (f : α → Prog β) (s : Stmts) :
    exec (p >>= f) s = (exec p s).andThen fun a s' => exec (f a) s' := Prog.run_bind' _ p f s

@[simp] theorem exec_toResult {α : Type} (p : Prog α) (s : Stmts) :
    exec p.toResult s = (exec p s).toResult := by
  unfold exec
  induction p generalizing s with
  | ret | err | panic | outOfFuel => rfl
  | next k ih => exact ih _ _
  | peek k ih => exact ih _ _
  | nextStatement k ih => exact ih _ _

@[simp] theorem exec_pure {α : Type} (a : α) (s : Stmts) : exec (pure a) s = .ok a s := rfl
@[simp] theorem exec_fail {α : Type} (e : ASTError) (s : Stmts) : exec (fail (α := α) e) s = .err e s := rfl
@[simp] theorem exec_panic {α : Type} (p : PanicSite) (s : Stmts) :
    exec (Prog.panic (α := α) p) s = .panic p := rfl
@[simp] theorem exec_outOfFuel {α : Type} (s : Stmts) :
    exec (Prog.outOfFuel (α := α)) s = .outOfFuel := rfl

@[simp] theorem exec_next_nil (later : List (List Token)) :
    exec next ⟨[], later⟩ = .ok none ⟨[], later⟩ := rfl
@[simp] theorem exec_next_cons (t : Token) (cur : List Token) (later : List (List Token)) :
    exec next ⟨t :: cur, later⟩ = .ok (some t) ⟨cur, later⟩ := rfl
@[simp] theorem exec_peek_nil (later : List (List Token)) :
    exec peek ⟨[], later⟩ = .ok none ⟨[], later⟩ := rfl
@[simp] theorem exec_peek_cons (t : Token) (cur : List Token) (later : List (List Token)) :
    exec peek ⟨t :: cur, later⟩ = .ok (some t) ⟨t :: cur, later⟩ := rfl
@[simp] theorem exec_nextStatement (s : Stmts) : exec nextStatement s = .ok s.cur s.advance := rfl

@[simp] theorem exec_nextIf_nil (f : Token → Bool) (later : List (List Token)) :
    exec (nextIf f) ⟨[], later⟩ = .ok none ⟨[], later⟩ := by
  simp [nextIf]
@[simp] theorem exec_nextIf_cons (f : Token → Bool) (t : Token) (cur : List Token)
    (later : List (List Token)) : exec (nextIf f) ⟨t :: cur, later⟩ =
      if f t then .ok (some t) ⟨cur, later⟩ else .ok none ⟨t :: cur, later⟩ := by
  simp [nextIf]; split <;> simp
@[simp] theorem exec_nextIfTokenTypeEq_nil (ty : TokenType) (later : List (List Token)) :
    exec (nextIfTokenTypeEq ty) ⟨[], later⟩ = .ok none ⟨[], later⟩ := by
  simp [nextIfTokenTypeEq]
@[simp] theorem exec_nextIfTokenTypeEq_cons (ty : TokenType) (t : Token) (cur : List Token)
    (later : List (List Token)) : exec (nextIfTokenTypeEq ty) ⟨t :: cur, later⟩ =
      if t.tokenType = ty then .ok (some t) ⟨cur, later⟩ else .ok none ⟨t :: cur, later⟩ := by
  simp [nextIfTokenTypeEq]; split <;> simp
@[simp] theorem exec_nextIfTokenTypeNe_nil (ty : TokenType) (later : List (List Token)) :
    exec (nextIfTokenTypeNe ty) ⟨[], later⟩ = .ok none ⟨[], later⟩ := by
  simp [nextIfTokenTypeNe]
@[simp] theorem exec_nextIfTokenTypeNe_cons (ty : TokenType) (t : Token) (cur : List Token)
    (later : List (List Token)) : exec (nextIfTokenTypeNe ty) ⟨t :: cur, later⟩ =
      if t.tokenType = ty then .ok none ⟨t :: cur, later⟩ else .ok (some t) ⟨cur, later⟩ := by
  simp [nextIfTokenTypeNe]; split <;> simp

@[simp] theorem exec_nextStatementShouldBeEmpty (s : Stmts) : exec nextStatementShouldBeEmpty s =
    if s.cur = [] then .ok () s.advance else .err (.tooManyTokens s.cur) s.advance := by
  simp only [nextStatementShouldBeEmpty, exec_bind, exec_nextStatement, Res.andThen_ok, List.isEmpty_iff]
  split <;> simp

end Lol
