import Verif.Parser.ParseLemmas
import Verif.Parser.ReadSpec

/-! # Statements that stay on their own: lemmas -/

namespace Lol

/-! ## Programs that do not leave the statement -/

/-- The program never calls `next_statement`. -/
def Prog.Local {α : Type} : Prog α → Prop
  | .ret _ | .err _ | .panic _ | .outOfFuel => True
  | .next k => ∀ t, (k t).Local
  | .peek k => ∀ t, (k t).Local
  | .nextStatement _ => False

theorem Prog.Local.bind {α β : Type} {p : Prog α} {f : α → Prog β} (hp : p.Local) (hf : ∀ a, (f a).Local) :
    (p >>= f).Local := by
  change (p.bind f).Local
  induction p with
  | ret a => exact hf a
  | err | panic | outOfFuel => trivial
  | next k ih => exact fun t => ih t (hp t)
  | peek k ih => exact fun t => ih t (hp t)
  | nextStatement k ih => exact hp.elim

theorem Prog.Local.pure {α : Type} (a : α) : (Pure.pure a : Prog α).Local := trivial
theorem Prog.Local.fail {α : Type} (e : ASTError) : (Lol.fail e : Prog α).Local := trivial
theorem Prog.Local.next : (Lol.next).Local := fun _ => trivial
theorem Prog.Local.peek : (Lol.peek).Local := fun _ => trivial
theorem Prog.Local.outOfFuel {α : Type} : (Prog.outOfFuel : Prog α).Local := trivial
theorem Prog.Local.panic {α : Type} (p : PanicSite) : (Prog.panic p : Prog α).Local := trivial
theorem Prog.Local.nextIf (f : Token → Bool) : (Lol.nextIf f).Local := by
  refine .bind .peek fun o => ?_
  cases o with
  | none => trivial
  | some t => dsimp only; split; exact .next; trivial
theorem Prog.Local.nextIfEq (ty : TokenType) : (nextIfTokenTypeEq ty).Local := by
  refine .bind .peek fun o => ?_
  cases o with
  | none => trivial
  | some t => dsimp only; split; exact .next; trivial
theorem Prog.Local.nextIfNe (ty : TokenType) : (nextIfTokenTypeNe ty).Local := by
  refine .bind .peek fun o => ?_
  cases o with
  | none => trivial
  | some t => dsimp only; split; exact .next; trivial

/-- Take one step of a proof of `Local`. -/
macro "local_step" : tactic => `(tactic| first
  | exact Prog.Local.pure _ | exact Prog.Local.fail _ | exact Prog.Local.next | exact Prog.Local.peek
  | exact Prog.Local.outOfFuel | exact Prog.Local.panic _ | exact Prog.Local.nextIf _
  | exact Prog.Local.nextIfEq _ | exact Prog.Local.nextIfNe _
  | assumption | apply_assumption
  | (refine Prog.Local.bind ?_ fun _ => ?_) | split)

theorem Identifier.parse_local (t : Token) : (Identifier.parse t).Local := by
  unfold Identifier.parse; repeat' local_step

theorem VariableAccess.parseSlots_local : (n : Nat) → (VariableAccess.parseSlots n).Local
  | 0 => trivial
  | n + 1 => by
    have h1 := VariableAccess.parseSlots_local n
    have h2 := Identifier.parse_local
    unfold VariableAccess.parseSlots; repeat' local_step

theorem VariableAccess.parse_local (n : Nat) (t : Token) : (VariableAccess.parse n t).Local := by
  have h1 := VariableAccess.parseSlots_local
  have h2 := Identifier.parse_local
  unfold VariableAccess.parse; repeat' local_step

theorem parseBinary_local {expr : Token → Prog Expr} (h : ∀ t, (expr t).Local) (op : BinaryOpt) :
    (parseBinary expr op).Local := by
  unfold parseBinary; repeat' local_step

theorem parseUnary_local {expr : Token → Prog Expr} (h : ∀ t, (expr t).Local) (op : UnaryOpt) :
    (parseUnary expr op).Local := by
  unfold parseUnary; repeat' local_step

theorem parseOperands_local {expr : Token → Prog Expr} (h : ∀ t, (expr t).Local) :
    (n : Nat) → (parseOperands expr n).Local
  | 0 => trivial
  | n + 1 => by
    have h1 := parseOperands_local h n
    unfold parseOperands; repeat' local_step

theorem parseNary_local {expr : Token → Prog Expr} (h : ∀ t, (expr t).Local) (n : Nat) (op : NaryOpt) :
    (parseNary expr n op).Local := by
  have h1 := parseOperands_local h
  unfold parseNary; repeat' local_step

theorem parseExpr_local : (n : Nat) → (t : Token) → (parseExpr n t).Local
  | 0, _ => trivial
  | n + 1, t => by
    have h1 := parseExpr_local n
    have h2 := parseBinary_local h1
    have h3 := parseUnary_local h1
    have h4 := parseNary_local h1 n
    have h5 := VariableAccess.parse_local
    unfold parseExpr; repeat' local_step

theorem IHasA.parse_local (n : Nat) (t : Token) : (IHasA.parse n t).Local := by
  have h1 := parseExpr_local n
  have h2 := Identifier.parse_local
  unfold IHasA.parse; repeat' local_step

theorem Visible.parseExpressions_local (n : Nat) : (m : Nat) → (Visible.parseExpressions n m).Local
  | 0 => trivial
  | m + 1 => by
    have h1 := parseExpr_local n
    have h2 := Visible.parseExpressions_local n m
    unfold Visible.parseExpressions; repeat' local_step

theorem Visible.parse_local (n : Nat) (t : Token) : (Visible.parse n t).Local := by
  have h1 := Visible.parseExpressions_local n n
  unfold Visible.parse; repeat' local_step

theorem Gimmeh.parse_local (n : Nat) (t : Token) : (Gimmeh.parse n t).Local := by
  have h1 := VariableAccess.parse_local n
  unfold Gimmeh.parse; repeat' local_step

theorem FoundYr.parse_local (n : Nat) (t : Token) : (FoundYr.parse n t).Local := by
  have h1 := parseExpr_local n
  unfold FoundYr.parse; repeat' local_step

theorem VariableAssignment.parse_local (n : Nat) (v : VariableAccess) : (VariableAssignment.parse n v).Local := by
  have h1 := parseExpr_local n
  unfold VariableAssignment.parse; repeat' local_step

theorem BukkitSetSlot.parse_local (n : Nat) (v : VariableAccess) : (BukkitSetSlot.parse n v).Local := by
  have h1 := parseExpr_local n
  have h2 := Identifier.parse_local
  unfold BukkitSetSlot.parse; repeat' local_step

theorem IIz.parseArguments_local (n : Nat) : (m : Nat) → (IIz.parseArguments n m).Local
  | 0 => trivial
  | m + 1 => by
    have h1 := parseExpr_local n
    have h2 := IIz.parseArguments_local n m
    unfold IIz.parseArguments; repeat' local_step

theorem IIz.parse_local (n : Nat) (t : Token) : (IIz.parse n t).Local := by
  have h1 := VariableAccess.parse_local n
  have h2 := IIz.parseArguments_local n n
  unfold IIz.parse; repeat' local_step

theorem parseAccessStatement_local (n : Nat) (t : Token) : (parseAccessStatement n t).Local := by
  have h1 := VariableAccess.parse_local n
  have h2 := VariableAssignment.parse_local n
  have h3 := BukkitSetSlot.parse_local n
  unfold parseAccessStatement; repeat' local_step

/-- The keywords that start a statement which goes on to later statements. -/
def blockKeywords : List Keyword := [.HAI, .IM_IN_YR, .HOW_IZ_I, .WTF, .O_RLY]

theorem parseStatement_local {t : Token} (h : ∀ k ∈ blockKeywords, ¬ t.Is k) (n : Nat)
    (block : (Token → Bool) → Prog Block) : (parseStatement block n t).Local := by
  have h0 := parseAccessStatement_local n
  have h1 := IHasA.parse_local n
  have h2 := Visible.parse_local n
  have h3 := Gimmeh.parse_local n
  have h4 := FoundYr.parse_local n
  have h5 := IIz.parse_local n
  have h6 := parseExpr_local n
  simp only [blockKeywords, List.mem_cons, List.not_mem_nil, or_false, forall_eq_or_imp, forall_eq, Token.Is] at h
  obtain ⟨n1, n2, n3, n4, n5⟩ := h
  unfold parseStatement
  split
  · exact h0 t
  · split
    · exact .bind (h1 t) fun _ => .pure _
    · exact .bind (h2 t) fun _ => .pure _
    · exact .bind (h3 t) fun _ => .pure _
    · exact .bind (h4 t) fun _ => .pure _
    · contradiction
    · exact .pure _
    · exact .pure _
    · exact .bind (h5 t) fun _ => .pure _
    · contradiction
    · contradiction
    · contradiction
    · contradiction
    · exact .bind (h6 t) fun _ => .pure _

/-- The same outcome with other later statements. -/
def Res.withLater {α : Type} (later : List (List Token)) : Res Stmts α → Res Stmts α
  | .ok a s => .ok a ⟨s.cur, later⟩
  | .err e s => .err e ⟨s.cur, later⟩
  | .panic q => .panic q
  | .outOfFuel => .outOfFuel

theorem exec_local {α : Type} {p : Prog α} (hp : p.Local) (cur : List Token) (later later' : List (List Token)) :
    exec p ⟨cur, later⟩ = (exec p ⟨cur, later'⟩).withLater later := by
  unfold exec
  induction p generalizing cur with
  | ret | err | panic | outOfFuel => rfl
  | next k ih => cases cur <;> exact ih _ (hp _) _
  | peek k ih => exact ih _ (hp _) _
  | nextStatement k ih => exact hp.elim

theorem exec_local_later {α : Type} {p : Prog α} (hp : p.Local) (cur : List Token) (later : List (List Token)) :
    match exec p ⟨cur, later⟩ with
      | .ok _ s => s.later = later
      | .err _ s => s.later = later
      | _ => True := by
  unfold exec
  induction p generalizing cur with
  | ret | err => rfl
  | panic | outOfFuel => trivial
  | next k ih => cases cur <;> exact ih _ (hp _) _
  | peek k ih => exact ih _ (hp _) _
  | nextStatement k ih => exact hp.elim

theorem exec_blockTail (c : List Token) (later : List (List Token)) (n : Nat) (stop : Token → Bool) (pre : Block) :
    exec (blockTail n stop pre) ⟨c, later⟩ = match (Stmts.of later).cur with
      | [] => .ok (pre ++ leftoverNodes c) (.of later)
      | t :: _ => if stop t then .ok (pre ++ leftoverNodes c) (.of later) else
          (exec (parseBlock n stop) (.of later)).andThen fun more s' => .ok (pre ++ leftoverNodes c ++ more) s' := by
  have hl : exec leftover ⟨c, later⟩ = .ok (leftoverNodes c) (.of later) := by
    simp only [leftover, exec_bind, exec_toResult, exec_nextStatementShouldBeEmpty, leftoverNodes, Stmts.advance_of]
    split <;> simp
  simp only [blockTail, exec_bind, hl, Res.andThen_ok]
  generalize Stmts.of later = s1
  obtain ⟨cur, later⟩ := s1
  cases cur with
  | nil => simp
  | cons t r =>
    simp only [exec_peek_cons, Res.andThen_ok]
    split <;> simp

/-- The outcome of the rest of a block. -/
def parseRest (later : List (List Token)) : Out Block :=
  if (Stmts.of later).cur = [] then .ok [] else parseStmts (.of later)

/-- The node that a block gets for the result of `parse_statement`. -/
def resultNode : Except ASTError Node → Node
  | .ok node => node
  | .error e => .astError e

theorem parseBlock_cons' (n : Nat) (stop : Token → Bool) (t : Token) (cur : List Token)
    (later : List (List Token)) : exec (parseBlock (n + 1) stop) ⟨t :: cur, later⟩ =
      (exec (parseStatement (parseBlock n) n t).toResult ⟨cur, later⟩).andThen fun x s =>
        exec (blockTail n stop [resultNode x]) s := by
  rw [parseBlock_cons]
  cases exec (parseStatement (parseBlock n) n t).toResult ⟨cur, later⟩ with
  | ok x s => cases x <;> rfl
  | _ => rfl

/-- What `parse` does with the first statement, once `parse_statement` is known. -/
theorem parseStmts_head {n0 : Nat} {t : Token} {cur : List Token} {later : List (List Token)}
    {x : Except ASTError Node} {c : List Token} {l : List (List Token)}
    (h : ∀ n, n0 ≤ n → exec (parseStatement (parseBlock n) n t).toResult ⟨cur, later⟩ = .ok x ⟨c, l⟩) :
    parseStmts ⟨t :: cur, later⟩ = (parseRest l).bind fun more =>
      .ok (resultNode x :: leftoverNodes c ++ more) := by
  have hn : ∃ n, n0 ≤ n ∧ Stmts.size ⟨t :: cur, later⟩ + 2 ≤ n + 1 ∧ (Stmts.of l).size + 2 ≤ n :=
    ⟨n0 + Stmts.size ⟨t :: cur, later⟩ + (Stmts.of l).size + 2, by omega, by omega, by omega⟩
  obtain ⟨n, hn1, hn2, hn3⟩ := hn
  rw [← parseStmts_eq hn2, parseBlock_cons', h n hn1, Res.andThen_ok, exec_blockTail]
  unfold parseRest
  rw [← parseStmts_eq hn3]
  cases hc : (Stmts.of l).cur with
  | nil => simp [Out.bind, Res.block]
  | cons u r =>
    simp only [stopRoot, Bool.false_eq_true, if_false, reduceCtorEq]
    cases hr : exec (parseBlock n stopRoot) (Stmts.of l) with
    | ok more s => rfl
    | err e s => exact absurd hr (parseBlock_no_err _ _ _ _ _)
    | panic p => rfl
    | outOfFuel => rfl

theorem parseStmts_head_panic {n0 : Nat} {t : Token} {cur : List Token} {later : List (List Token)} {p : PanicSite}
    (h : ∀ n, n0 ≤ n → exec (parseStatement (parseBlock n) n t) ⟨cur, later⟩ = .panic p) :
    parseStmts ⟨t :: cur, later⟩ = .panic p := by
  refine parseStmts_of (n := n0 + 1) ?_ (by simp)
  rw [parseBlock_cons', exec_toResult, h n0 (Nat.le_refl _)]
  rfl

/-- With enough fuel the outcome of `parse_statement` does not depend on the fuel. -/
theorem parseStatement_stable (t : Token) (s : Stmts) : ∃ r, r ≠ .outOfFuel ∧ ∃ n0, ∀ n, n0 ≤ n →
    exec (parseStatement (parseBlock n) n t) s = r := by
  have hlt : ∀ n, s.size + 2 ≤ n → exec (parseStatement (parseBlock n) n t) s ≠ .outOfFuel := by
    intro n hn h
    have := parseStatement_post (n := n) (fun stop pre s => parseBlock_post n stop pre s) t [t] s.cur s.later
      (by simp)
    unfold StatementPost at this
    rw [h] at this
    exact this hn
  refine ⟨_, hlt _ (Nat.le_refl _), s.size + 2, fun n hn => ?_⟩
  induction hn with
  | refl => rfl
  | @step m hm ih =>
    rw [← ih]
    exact (statement_le (fun stop => block_le m stop) m t).run _ s (hlt m hm)

/-- A statement that does not go on to later statements: its tree alone comes first. -/
theorem parseStmts_flat {t : Token} {cur : List Token} (ht : ∀ k ∈ blockKeywords, ¬ t.Is k)
    (later : List (List Token)) :
    parseStmts ⟨t :: cur, later⟩ =
      (parseStmts ⟨t :: cur, []⟩).bind fun a => (parseRest later).bind fun b => .ok (a ++ b) := by
  obtain ⟨r, hr, n0, h⟩ := parseStatement_stable t ⟨cur, []⟩
  have h' : ∀ n, n0 ≤ n → exec (parseStatement (parseBlock n) n t) ⟨cur, later⟩ = r.withLater later := by
    intro n hn
    rw [exec_local (parseStatement_local ht n _) cur later [], h n hn]
  have h'' := fun n (_ : n0 ≤ n) => exec_local_later (parseStatement_local ht n (parseBlock n)) cur []
  have hnil : parseRest [] = .ok [] := rfl
  cases r with
  | ok node s =>
    obtain ⟨c, l⟩ := s
    have := h'' n0 (Nat.le_refl _)
    rw [h n0 (Nat.le_refl _)] at this
    dsimp only at this
    subst this
    rw [parseStmts_head (x := .ok node) (c := c) (l := later) (n0 := n0) (fun n hn => by
        rw [exec_toResult, h' n hn]; rfl),
      parseStmts_head (x := .ok node) (c := c) (l := []) (n0 := n0) (fun n hn => by
        rw [exec_toResult, h n hn]; rfl), hnil]
    simp [Out.bind]
  | err e s =>
    obtain ⟨c, l⟩ := s
    have := h'' n0 (Nat.le_refl _)
    rw [h n0 (Nat.le_refl _)] at this
    dsimp only at this
    subst this
    rw [parseStmts_head (x := .error e) (c := c) (l := later) (n0 := n0) (fun n hn => by
        rw [exec_toResult, h' n hn]; rfl),
      parseStmts_head (x := .error e) (c := c) (l := []) (n0 := n0) (fun n hn => by
        rw [exec_toResult, h n hn]; rfl), hnil]
    simp [Out.bind]
  | panic p =>
    rw [parseStmts_head_panic h', parseStmts_head_panic h]
    rfl
  | outOfFuel => exact absurd rfl hr

end Lol
