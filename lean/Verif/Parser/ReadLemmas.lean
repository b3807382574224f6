import Verif.Parser.FlatTotal

/-! # Headers of block constructs: soundness -/

namespace Lol

/-- What a parser that stays in the current statement returns (`Q`), and how it fails (`E`). -/
def LPost {α : Type} (cur : List Token) (later : List (List Token)) (Q : α → List Token → List Token → Prop)
    (E : Fail → List Token → List Token → Prop) (r : Res Stmts α) : Prop :=
  OkPost cur later Q r ∧ FPost cur later E r

theorem LPost.mono {α : Type} {cur : List Token} {later : List (List Token)}
    {Q Q' : α → List Token → List Token → Prop} {E E' : Fail → List Token → List Token → Prop} {r : Res Stmts α}
    (h : LPost cur later Q E r) (hQ : ∀ a used cur', cur = used ++ cur' → Q a used cur' → Q' a used cur')
    (hE : ∀ f used cur', cur = used ++ cur' → E f used cur' → E' f used cur') : LPost cur later Q' E' r := by
  refine ⟨?_, h.2.mono hE⟩
  cases r with
  | ok a s =>
    obtain ⟨u, c, h1, h2, h3⟩ := h.1
    exact ⟨u, c, h1, h2, hQ _ _ _ h2 h3⟩
  | _ => trivial

theorem LPost.bind {α β : Type} {cur : List Token} {later : List (List Token)}
    {Q : α → List Token → List Token → Prop} {E E' : Fail → List Token → List Token → Prop}
    {R : β → List Token → List Token → Prop} {p : Prog α} {f : α → Prog β}
    (h : LPost cur later Q E (exec p ⟨cur, later⟩))
    (hE : ∀ f used cur', cur = used ++ cur' → E f used cur' → E' f used cur')
    (h' : ∀ a used cur', cur = used ++ cur' → Q a used cur' →
      LPost cur' later (fun b u c => R b (used ++ u) c) (fun f u c => E' f (used ++ u) c)
        (exec (f a) ⟨cur', later⟩)) :
    LPost cur later R E' (exec (p >>= f) ⟨cur, later⟩) := by
  refine ⟨h.1.bind fun a u c h1 h2 => (h' a u c h1 h2).1, ?_⟩
  have h2 := h.2.mono hE
  rw [exec_bind]
  cases hp : exec p ⟨cur, later⟩ with
  | ok a s =>
    have h1 := h.1
    rw [hp] at h1
    obtain ⟨u, c, rfl, rfl, hq⟩ := h1
    have := (h' a u c rfl hq).2
    rw [Res.andThen_ok]
    cases hf : exec (f a) ⟨c, later⟩ with
    | ok b s => trivial
    | outOfFuel => trivial
    | err e s =>
      rw [hf] at this
      obtain ⟨u2, c2, h1, h2, h3⟩ := this
      exact ⟨u ++ u2, c2, h1, by rw [h2]; simp, h3⟩
    | panic p =>
      rw [hf] at this
      obtain ⟨u2, c2, h2, h3⟩ := this
      exact ⟨u ++ u2, c2, by rw [h2]; simp, h3⟩
  | err e s => rw [hp] at h2; exact h2
  | panic s => rw [hp] at h2; exact h2
  | outOfFuel => trivial

theorem LPost.pure {α : Type} {cur : List Token} {later : List (List Token)}
    {Q : α → List Token → List Token → Prop} {E : Fail → List Token → List Token → Prop} {a : α}
    (h : Q a [] cur) : LPost cur later Q E (exec (Pure.pure a) ⟨cur, later⟩) := ⟨.pure h, .pure⟩

theorem LPost.fail {α : Type} {cur : List Token} {later : List (List Token)}
    {Q : α → List Token → List Token → Prop} {E : Fail → List Token → List Token → Prop} {e : ASTError}
    (h : E (.error e) [] cur) : LPost cur later Q E (exec (Lol.fail (α := α) e) ⟨cur, later⟩) :=
  ⟨trivial, .fail h⟩

theorem LPost.next {β : Type} {cur : List Token} {later : List (List Token)}
    {Q : β → List Token → List Token → Prop} {E : Fail → List Token → List Token → Prop}
    {f : Option Token → Prog β}
    (h1 : cur = [] → LPost [] later Q E (exec (f none) ⟨[], later⟩))
    (h2 : ∀ t r, cur = t :: r → LPost r later (fun a u c => Q a (t :: u) c) (fun f u c => E f (t :: u) c)
      (exec (f (some t)) ⟨r, later⟩)) :
    LPost cur later Q E (exec (Lol.next >>= f) ⟨cur, later⟩) := by
  refine .bind (E := fun _ _ _ => False) (Q := fun o used cur' => (o = none ∧ used = [] ∧ cur = [] ∧ cur' = []) ∨
    ∃ t, o = some t ∧ used = [t] ∧ cur = t :: cur') ⟨?_, by cases cur <;> trivial⟩ (by simp) ?_
  · cases cur with
    | nil => exact ⟨[], [], rfl, rfl, .inl ⟨rfl, rfl, rfl, rfl⟩⟩
    | cons t r => exact ⟨[t], r, rfl, rfl, .inr ⟨t, rfl, rfl, rfl⟩⟩
  · rintro o used cur' - (⟨rfl, rfl, h, rfl⟩ | ⟨t, rfl, rfl, rfl⟩)
    · exact h1 h
    · exact h2 t _ rfl

theorem LPost.nextIf {β : Type} {cur : List Token} {later : List (List Token)} {g : Token → Bool}
    {Q : β → List Token → List Token → Prop} {E : Fail → List Token → List Token → Prop}
    {f : Option Token → Prog β}
    (h1 : (∀ t r, cur = t :: r → g t = false) → LPost cur later Q E (exec (f none) ⟨cur, later⟩))
    (h2 : ∀ t r, cur = t :: r → g t = true → LPost r later (fun a u c => Q a (t :: u) c)
      (fun f u c => E f (t :: u) c) (exec (f (some t)) ⟨r, later⟩)) :
    LPost cur later Q E (exec (Lol.nextIf g >>= f) ⟨cur, later⟩) := by
  refine .bind (E := fun _ _ _ => False) (Q := fun o used cur' =>
    (o = none ∧ used = [] ∧ cur' = cur ∧ ∀ t r, cur = t :: r → g t = false) ∨
    ∃ t, o = some t ∧ used = [t] ∧ cur = t :: cur' ∧ g t = true) ?_ (by simp) ?_
  · cases cur with
    | nil => exact ⟨⟨[], [], rfl, rfl, .inl ⟨rfl, rfl, rfl, by simp⟩⟩, trivial⟩
    | cons t r =>
      rw [exec_nextIf_cons]
      cases h : g t with
      | true => exact ⟨⟨[t], r, rfl, rfl, .inr ⟨t, rfl, rfl, rfl, h⟩⟩, trivial⟩
      | false => exact ⟨⟨[], t :: r, rfl, rfl, .inl ⟨rfl, rfl, rfl, by
          rintro _ _ ⟨⟩; exact h⟩⟩, trivial⟩
  · rintro o used cur' - (⟨rfl, rfl, rfl, h⟩ | ⟨t, rfl, rfl, rfl, h⟩)
    · exact h1 h
    · exact h2 t _ rfl h

theorem LPost.peek {β : Type} {cur : List Token} {later : List (List Token)}
    {Q : β → List Token → List Token → Prop} {E : Fail → List Token → List Token → Prop}
    {f : Option Token → Prog β}
    (h1 : cur = [] → LPost [] later Q E (exec (f none) ⟨[], later⟩))
    (h2 : ∀ t r, cur = t :: r → LPost (t :: r) later Q E (exec (f (some t)) ⟨t :: r, later⟩)) :
    LPost cur later Q E (exec (Lol.peek >>= f) ⟨cur, later⟩) := by
  cases cur with
  | nil => rw [exec_bind, exec_peek_nil]; exact h1 rfl
  | cons t r => rw [exec_bind, exec_peek_cons]; exact h2 t r rfl

theorem Identifier.parse_lpost (cur : List Token) (later : List (List Token)) (first : Token) :
    LPost cur later (fun i used _ => first :: used = Identifier.toks i ∧ i.WF)
      (fun f used rest => IdentFail rest (first :: used) f)
      (exec (Identifier.parse first) ⟨cur, later⟩) :=
  ⟨(Identifier.parse_post _ _ _ True first (List.mem_singleton.2 rfl)).toOk, Identifier.parse_fail cur later first⟩

theorem VariableAccess.parse_lpost (n : Nat) (cur : List Token) (later : List (List Token)) (first : Token) :
    LPost cur later (fun v used rest => first :: used = VariableAccess.toks v ∧ v.WF ∧ NoSlot rest)
      (fun f used rest => AccessFail rest (first :: used) f)
      (exec (VariableAccess.parse n first) ⟨cur, later⟩) :=
  ⟨(VariableAccess.parse_post n [first] cur later first (by simp)).toOk,
    VariableAccess.parse_fail n cur later first⟩

theorem parseExpr_lpost (n : Nat) (cur : List Token) (later : List (List Token)) (first : Token) :
    LPost cur later (fun e used rest => first :: used = Expr.toks e ∧ e.WF ∧ e.Follow rest)
      (fun f used rest => ExprFail rest (first :: used) f)
      (exec (parseExpr n first) ⟨cur, later⟩) :=
  ⟨(parseExpr_wf n first cur later).toOk, parseExpr_fail n first cur later⟩

theorem parseIterationOperation_read (n : Nat) (cur : List Token) (later : List (List Token)) :
    LPost cur later (fun op used rest => IterR rest used op) (fun f used rest => IterFail rest used f)
      (exec (parseIterationOperation n) ⟨cur, later⟩) := by
  unfold parseIterationOperation
  refine .nextIf ?_ ?_
  · intro h
    refine .pure (.none ?_ ?_)
    all_goals
      intro t r ht hk
      have := h t r ht
      simp [isKeyword_true hk] at this
  · rintro t r rfl ht
    have hop : ∃ op : LoopOperation, op.token = t ∧ op.token.Is op.keyword ∧
        (if t.isKeyword .UPPIN then LoopOperation.uppin t else .nerfin t) = op := by
      by_cases h : t.isKeyword .UPPIN = true
      · exact ⟨.uppin t, rfl, Token.isKeyword_iff.1 h, by simp [h]⟩
      · refine ⟨.nerfin t, rfl, Token.isKeyword_iff.1 ?_, by simp [h]⟩
        simp only [Bool.or_eq_true] at ht
        exact ht.resolve_left h
    obtain ⟨op, rfl, hop, he⟩ := hop
    dsimp only
    rw [he]
    refine .next ?_ ?_
    · rintro rfl
      exact .fail (.yrEnd hop rfl)
    · rintro yr r rfl
      dsimp only
      split
      · rename_i hyr
        rw [Token.isKeyword_iff] at hyr
        refine .next ?_ ?_
        · rintro rfl
          exact .fail (.nameEnd hop hyr rfl)
        · rintro u r rfl
          refine .bind (VariableAccess.parse_lpost n r later u) (fun f used c _ h => .name hop hyr h) ?_
          rintro v used cur' rfl ⟨h1, h2, h3⟩
          refine .pure ?_
          rw [List.append_nil, h1]
          exact .some hop hyr h2 h3
      · rename_i hyr
        rw [Token.isKeyword_iff] at hyr
        exact .fail (.yr hop hyr)

theorem parseConditional_read (n : Nat) (cur : List Token) (later : List (List Token)) :
    LPost cur later (fun op used rest => CondR rest used op) (fun f used rest => CondFail rest used f)
      (exec (parseConditional n) ⟨cur, later⟩) := by
  unfold parseConditional
  refine .nextIf ?_ ?_
  · intro h
    refine .pure (.none ?_ ?_)
    all_goals
      intro t r ht hk
      have := h t r ht
      simp [isKeyword_true hk] at this
  · rintro t r rfl ht
    have hk : t.Is .TIL ∨ t.Is .WILE := by
      rw [← Token.isKeyword_iff, ← Token.isKeyword_iff, ← Bool.or_eq_true]
      exact ht
    refine .next ?_ ?_
    · rintro rfl
      exact .fail (.exprEnd hk rfl)
    · rintro u r rfl
      refine .bind (parseExpr_lpost n r later u) (fun f used c _ h => .expr hk h) ?_
      rintro e used cur' rfl ⟨h1, h2, h3⟩
      split
      · rename_i h
        refine .pure ?_
        rw [List.append_nil, h1]
        exact .til (Token.isKeyword_iff.1 h) h2 h3
      · rename_i h
        refine .pure ?_
        rw [List.append_nil, h1]
        rw [Token.isKeyword_iff] at h
        exact .wile (hk.resolve_left h) h2 h3

theorem parseParameters_read (n : Nat) (cur : List Token) (later : List (List Token)) :
    LPost cur later (fun is used rest => ParamsR rest used is) (fun f used rest => ParamsFail rest used f)
      (exec (parseParameters n) ⟨cur, later⟩) := by
  induction n generalizing cur with
  | zero => exact ⟨trivial, trivial⟩
  | succ n ih =>
    unfold parseParameters
    refine .nextIf ?_ ?_
    · intro h
      refine .pure (.nil ?_)
      intro t r ht hk
      have := h t r ht
      simp [isKeyword_true hk] at this
    · rintro yr r rfl hyr
      rw [Token.isKeyword_iff] at hyr
      refine .next ?_ ?_
      · rintro rfl
        exact .fail (.nameEnd hyr rfl)
      · rintro u r rfl
        refine .bind (Identifier.parse_lpost r later u) (fun f used c _ h => .name hyr h) ?_
        rintro i used cur' rfl ⟨h1, h2⟩
        refine .peek ?_ ?_
        · rintro rfl
          refine .pure ?_
          rw [List.append_nil, h1]
          exact .one hyr h2 (by intro t r h; cases h)
        · rintro t r rfl
          dsimp only
          split
          · rename_i han
            rw [Token.isKeyword_iff] at han
            refine .next (by simp) ?_
            rintro t r ⟨⟩
            refine .bind (ih r) ?_ ?_
            · intro f used' c _ h
              have := ParamsFail.later hyr h2 han h
              rw [← h1] at this
              simpa using this
            · rintro is used' c rfl h
              refine .pure ?_
              have := ParamsR.cons hyr h2 han h
              rw [← h1] at this
              simpa using this
          · rename_i han
            rw [Token.isKeyword_iff] at han
            refine .pure ?_
            rw [List.append_nil, h1]
            exact .one hyr h2 (by rintro _ _ ⟨⟩; exact han)

end Lol
