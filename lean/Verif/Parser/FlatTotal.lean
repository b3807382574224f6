import Verif.Parser.FailComplete

/-! # Statements that do not open a block: every statement is read or fails as specified -/

namespace Lol

/-- What a parser that stays in the current statement returns. -/
def OkPost {α : Type} (cur : List Token) (later : List (List Token)) (Q : α → List Token → List Token → Prop) :
    Res Stmts α → Prop
  | .ok a s => ∃ used cur', s = ⟨cur', later⟩ ∧ cur = used ++ cur' ∧ Q a used cur'
  | _ => True

theorem EPost.toOk {α : Type} {pre cur : List Token} {later : List (List Token)} {F : Prop}
    {Q : α → List Token → List Token → Prop} {r : Res Stmts α} (h : EPost pre cur later F Q r) :
    OkPost cur later Q r := by
  cases r with
  | ok => exact h
  | _ => trivial

theorem OkPost.bind {α β : Type} {cur : List Token} {later : List (List Token)}
    {Q : α → List Token → List Token → Prop} {R : β → List Token → List Token → Prop}
    {p : Prog α} {f : α → Prog β} (h : OkPost cur later Q (exec p ⟨cur, later⟩))
    (h' : ∀ a used cur', cur = used ++ cur' → Q a used cur' →
      OkPost cur' later (fun b u c => R b (used ++ u) c) (exec (f a) ⟨cur', later⟩)) :
    OkPost cur later R (exec (p >>= f) ⟨cur, later⟩) := by
  rw [exec_bind]
  cases hp : exec p ⟨cur, later⟩ with
  | ok a s =>
    rw [hp] at h
    obtain ⟨u, c, rfl, rfl, hq⟩ := h
    have := h' a u c rfl hq
    rw [Res.andThen_ok]
    cases hf : exec (f a) ⟨c, later⟩ with
    | ok b s =>
      rw [hf] at this
      obtain ⟨u2, c2, h1, rfl, h3⟩ := this
      exact ⟨u ++ u2, c2, h1, by simp, h3⟩
    | _ => trivial
  | _ => trivial

theorem OkPost.pure {α : Type} {cur : List Token} {later : List (List Token)}
    {Q : α → List Token → List Token → Prop} {a : α} (h : Q a [] cur) :
    OkPost cur later Q (exec (pure a) ⟨cur, later⟩) := ⟨[], cur, rfl, rfl, h⟩

/-- A successful parser of a statement reads the statement of the grammar. -/
abbrev SimpleOk (first : Token) (cur : List Token) (later : List (List Token)) : Res Stmts Node → Prop :=
  OkPost cur later fun node used rest => SimpleG rest (first :: used) node

theorem SimpleOk.of {α : Type} {n : Nat} {first : Token} {pre cur : List Token} {later : List (List Token)}
    {f : α → Node} {p : Prog α} (h : SimplePost n first pre cur later f (exec p ⟨cur, later⟩)) :
    SimpleOk first cur later (exec (do let a ← p; pure (f a)) ⟨cur, later⟩) := by
  refine .bind (EPost.toOk h) ?_
  rintro a used cur' rfl h
  exact .pure (by simpa using h)

theorem parseAccessStatement_ok (n : Nat) (first : Token) (cur : List Token) (later : List (List Token)) :
    SimpleOk first cur later (exec (parseAccessStatement n first) ⟨cur, later⟩) := by
  unfold parseAccessStatement
  refine .bind (VariableAccess.parse_post n [first] cur later first (by simp)).toOk ?_
  rintro v used cur' rfl ⟨h1, h2, h3⟩
  have hv : ∀ t ∈ v.toks, t ∈ v.toks := fun _ h => h
  cases cur' with
  | nil =>
    rw [exec_bind, exec_peek_nil, Res.andThen_ok]
    refine .pure ?_
    rw [List.append_nil, h1]
    exact .access h2 rfl
  | cons t r =>
    rw [exec_bind, exec_peek_cons, Res.andThen_ok]
    dsimp only
    split
    · refine .bind (VariableAssignment.parse_post n v h2 _ (t :: r) later hv).toOk ?_
      rintro a used' cur' h5 h4
      rw [← h1] at h4
      exact .pure (by simpa using h4)
    · refine .bind (BukkitSetSlot.parse_post n v h2 _ (t :: r) later hv).toOk ?_
      rintro a used' cur' h5 h4
      rw [← h1] at h4
      exact .pure (by simpa using h4)
    · trivial

theorem parseStatement_ok {t : Token} (ht : ∀ k ∈ blockKeywords, ¬ t.Is k) (n : Nat)
    (block : (Token → Bool) → Prog Block) (cur : List Token) (later : List (List Token)) :
    SimpleOk t cur later (exec (parseStatement block n t) ⟨cur, later⟩) := by
  simp only [blockKeywords, List.mem_cons, List.not_mem_nil, or_false, forall_eq_or_imp, forall_eq, Token.Is] at ht
  obtain ⟨n1, n2, n3, n4, n5⟩ := ht
  unfold parseStatement
  split
  · exact parseAccessStatement_ok n t cur later
  · rename_i hv
    split
    · rename_i hk; exact .of (IHasA.parse_post n t [t] cur later (by simp) hk)
    · rename_i hk; exact .of (Visible.parse_post n t [t] cur later hk)
    · rename_i hk; exact .of (Gimmeh.parse_post n t [t] cur later (by simp) hk)
    · rename_i hk; exact .of (FoundYr.parse_post n t [t] cur later (by simp) hk)
    · contradiction
    · rename_i hk; exact .pure (.kThxBye hk)
    · rename_i hk; exact .pure (.gtfo hk)
    · rename_i hk; exact .of (IIz.parse_post n t [t] cur later (by simp) hk)
    · contradiction
    · contradiction
    · contradiction
    · contradiction
    · refine .bind (parseExpr_post' n t [t] cur later (by simp)).toOk ?_
      rintro e used cur' rfl ⟨h1, h2, h3⟩
      refine .pure ?_
      rw [List.append_nil, h1]
      exact .expression h2 h3 (Expr.not_access_of_not_valid h1 h2 hv)

/-- Every statement that does not open a block is a statement of the grammar and tokens left, or it fails. -/
theorem flat_total {t : Token} (ht : ∀ k ∈ blockKeywords, ¬ t.Is k) (cur : List Token) :
    ∃ ts rest, t :: cur = ts ++ rest ∧ ((∃ node, SimpleG rest ts node) ∨ ∃ f, SimpleFail rest ts f) := by
  obtain ⟨r, hr, n0, h⟩ := parseStatement_stable t ⟨cur, []⟩
  have h1 := parseStatement_ok ht n0 (parseBlock n0) cur []
  have h2 := parseStatement_fail ht n0 (parseBlock n0) cur []
  rw [h n0 (Nat.le_refl _)] at h1 h2
  cases r with
  | ok node s =>
    obtain ⟨used, cur', -, rfl, h3⟩ := h1
    exact ⟨_, _, rfl, .inl ⟨_, h3⟩⟩
  | err e s =>
    obtain ⟨used, cur', -, rfl, h3⟩ := h2
    exact ⟨_, _, rfl, .inr ⟨_, h3⟩⟩
  | panic p =>
    obtain ⟨used, cur', rfl, h3⟩ := h2
    exact ⟨_, _, rfl, .inr ⟨_, h3⟩⟩
  | outOfFuel => exact absurd rfl hr

theorem parseStmts_simple {ts rest : List Token} {node : Node} (h : SimpleG rest ts node)
    (later : List (List Token)) : parseStmts ⟨ts ++ rest, later⟩ =
      (parseRest later).bind fun more => .ok (node :: leftoverNodes rest ++ more) := by
  obtain ⟨t, tail, rfl, h1⟩ := h.complete later
  rw [List.cons_append]
  exact parseStmts_head (x := .ok node) (n0 := tail.length + rest.length + 2) fun n hn => by
    rw [exec_toResult, h1 _ n hn]; rfl

theorem parseStmts_error {ts rest : List Token} {e : ASTError} (h : SimpleFail rest ts (.error e))
    (later : List (List Token)) : parseStmts ⟨ts ++ rest, later⟩ =
      (parseRest later).bind fun more => .ok (.astError e :: leftoverNodes rest ++ more) := by
  obtain ⟨t, tail, rfl, h1⟩ := h.complete later
  rw [List.cons_append]
  exact parseStmts_head (x := .error e) (n0 := tail.length + rest.length + 2) fun n hn => by
    rw [exec_toResult, h1 _ n hn]; rfl

theorem parseStmts_fail_panic {ts rest : List Token} {p : PanicSite} (h : SimpleFail rest ts (.panic p))
    (later : List (List Token)) : parseStmts ⟨ts ++ rest, later⟩ = .panic p := by
  obtain ⟨t, tail, rfl, h1⟩ := h.complete later
  rw [List.cons_append]
  exact parseStmts_head_panic (n0 := tail.length + rest.length + 2) fun n hn => h1 _ n hn

end Lol
