import Verif.Parser.FailSpec
import Verif.Parser.FlatLemmas

/-! # Failures of the parsers of simple statements: soundness -/

namespace Lol

/-- How a parser that stays in the current statement fails: `E f used rest` says that it fails with `f` after
consuming `used`, `rest` being left. -/
def FPost {α : Type} (cur : List Token) (later : List (List Token)) (E : Fail → List Token → List Token → Prop) :
    Res Stmts α → Prop
  | .ok _ _ => True
  | .err e s => ∃ used cur', s = ⟨cur', later⟩ ∧ cur = used ++ cur' ∧ E (.error e) used cur'
  | .panic p => ∃ used cur', cur = used ++ cur' ∧ E (.panic p) used cur'
  | .outOfFuel => True

theorem FPost.mono {α : Type} {cur : List Token} {later : List (List Token)}
    {E E' : Fail → List Token → List Token → Prop} {r : Res Stmts α} (h : FPost cur later E r)
    (hE : ∀ f used cur', cur = used ++ cur' → E f used cur' → E' f used cur') : FPost cur later E' r := by
  cases r with
  | ok => trivial
  | outOfFuel => trivial
  | err e s =>
    obtain ⟨u, c, h1, h2, h3⟩ := h
    exact ⟨u, c, h1, h2, hE _ _ _ h2 h3⟩
  | panic p =>
    obtain ⟨u, c, h2, h3⟩ := h
    exact ⟨u, c, h2, hE _ _ _ h2 h3⟩

theorem FPost.bind {α β : Type} {pre cur : List Token} {later : List (List Token)} {F : Prop}
    {Q : α → List Token → List Token → Prop} {E : Fail → List Token → List Token → Prop}
    {p : Prog α} {f : α → Prog β} (h0 : EPost pre cur later F Q (exec p ⟨cur, later⟩))
    (h1 : FPost cur later E (exec p ⟨cur, later⟩))
    (h2 : ∀ a used cur', cur = used ++ cur' → Q a used cur' →
      FPost cur' later (fun f u c => E f (used ++ u) c) (exec (f a) ⟨cur', later⟩)) :
    FPost cur later E (exec (p >>= f) ⟨cur, later⟩) := by
  rw [exec_bind]
  cases hp : exec p ⟨cur, later⟩ with
  | ok a s =>
    rw [hp] at h0
    obtain ⟨u, c, rfl, rfl, hq⟩ := h0
    have := h2 a u c rfl hq
    rw [Res.andThen_ok]
    cases hf : exec (f a) ⟨c, later⟩ with
    | ok b s => trivial
    | outOfFuel => trivial
    | err e s =>
      rw [hf] at this
      obtain ⟨u2, c2, h1, h2, h3⟩ := this
      exact ⟨u ++ u2, c2, h1, by rw [h2]; simp, h3⟩
    | panic p =>
      rw [hf] at this
      obtain ⟨u2, c2, h2, h3⟩ := this
      exact ⟨u ++ u2, c2, by rw [h2]; simp, h3⟩
  | err e s => rw [hp] at h1; exact h1
  | panic s => rw [hp] at h1; exact h1
  | outOfFuel => trivial

theorem FPost.pure {α : Type} {cur : List Token} {later : List (List Token)}
    {E : Fail → List Token → List Token → Prop} {a : α} :
    FPost cur later E (exec (Pure.pure a) ⟨cur, later⟩) := trivial

theorem FPost.map {α β : Type} {cur : List Token} {later : List (List Token)}
    {E : Fail → List Token → List Token → Prop} {p : Prog α} {g : α → β}
    (h : FPost cur later E (exec p ⟨cur, later⟩)) :
    FPost cur later E (exec (p >>= fun a => Pure.pure (g a)) ⟨cur, later⟩) := by
  rw [exec_bind]
  cases hp : exec p ⟨cur, later⟩ with
  | ok => trivial
  | outOfFuel => trivial
  | err e s => rw [hp] at h; exact h
  | panic p => rw [hp] at h; exact h

theorem FPost.bindSafe {α β : Type} {cur : List Token} {later : List (List Token)}
    {E : Fail → List Token → List Token → Prop} {p : Prog α} {f : α → Prog β}
    (h : FPost cur later E (exec p ⟨cur, later⟩)) (hf : ∀ a s, ∃ b s', exec (f a) s = .ok b s') :
    FPost cur later E (exec (p >>= f) ⟨cur, later⟩) := by
  rw [exec_bind]
  cases hp : exec p ⟨cur, later⟩ with
  | ok a s =>
    obtain ⟨b, s', h'⟩ := hf a s
    rw [Res.andThen_ok, h']
    trivial
  | outOfFuel => trivial
  | err e s => rw [hp] at h; exact h
  | panic p => rw [hp] at h; exact h

theorem FPost.fail {α : Type} {cur : List Token} {later : List (List Token)}
    {E : Fail → List Token → List Token → Prop} {e : ASTError} (h : E (.error e) [] cur) :
    FPost cur later E (exec (Lol.fail (α := α) e) ⟨cur, later⟩) := ⟨[], cur, rfl, rfl, h⟩

theorem FPost.panic {α : Type} {cur : List Token} {later : List (List Token)}
    {E : Fail → List Token → List Token → Prop} {p : PanicSite} (h : E (.panic p) [] cur) :
    FPost cur later E (exec (Prog.panic (α := α) p) ⟨cur, later⟩) := ⟨[], cur, rfl, h⟩

/-- Facts about `next`. -/
theorem FPost.next {β : Type} {cur : List Token} {later : List (List Token)}
    {E : Fail → List Token → List Token → Prop} {f : Option Token → Prog β}
    (h1 : cur = [] → FPost [] later E (exec (f none) ⟨[], later⟩))
    (h2 : ∀ t r, cur = t :: r → FPost r later (fun f u c => E f (t :: u) c) (exec (f (some t)) ⟨r, later⟩)) :
    FPost cur later E (exec (Lol.next >>= f) ⟨cur, later⟩) := by
  refine .bind (pre := []) (F := True) .next (by cases cur <;> trivial) ?_
  rintro o used cur' - (⟨rfl, rfl, h, rfl⟩ | ⟨t, rfl, rfl, rfl⟩)
  · exact h1 h
  · exact h2 t _ rfl

/-- Facts about `next_if`. -/
theorem FPost.nextIf {β : Type} {cur : List Token} {later : List (List Token)} {g : Token → Bool}
    {E : Fail → List Token → List Token → Prop} {f : Option Token → Prog β}
    (h1 : (∀ t r, cur = t :: r → g t = false) → FPost cur later E (exec (f none) ⟨cur, later⟩))
    (h2 : ∀ t r, cur = t :: r → g t = true →
      FPost r later (fun f u c => E f (t :: u) c) (exec (f (some t)) ⟨r, later⟩)) :
    FPost cur later E (exec (Lol.nextIf g >>= f) ⟨cur, later⟩) := by
  refine .bind (pre := []) (F := True) .nextIf ?_ ?_
  · cases cur with
    | nil => trivial
    | cons t r => rw [exec_nextIf_cons]; split <;> trivial
  · rintro o used cur' - (⟨rfl, rfl, rfl, h⟩ | ⟨t, rfl, rfl, rfl, h⟩)
    · exact h1 h
    · exact h2 t _ rfl h

/-- Facts about `next_if_token_type_eq`. -/
theorem FPost.nextIfEq {β : Type} {cur : List Token} {later : List (List Token)} {ty : TokenType}
    {E : Fail → List Token → List Token → Prop} {f : Option Token → Prog β}
    (h1 : (∀ t r, cur = t :: r → t.tokenType ≠ ty) → FPost cur later E (exec (f none) ⟨cur, later⟩))
    (h2 : ∀ t r, cur = t :: r → t.tokenType = ty →
      FPost r later (fun f u c => E f (t :: u) c) (exec (f (some t)) ⟨r, later⟩)) :
    FPost cur later E (exec (nextIfTokenTypeEq ty >>= f) ⟨cur, later⟩) := by
  refine .bind (pre := []) (F := True) .nextIfEq ?_ ?_
  · cases cur with
    | nil => trivial
    | cons t r => rw [exec_nextIfTokenTypeEq_cons]; split <;> trivial
  · rintro o used cur' - (⟨rfl, rfl, rfl, h⟩ | ⟨t, rfl, rfl, rfl, h⟩)
    · exact h1 h
    · exact h2 t _ rfl h

/-- Facts about `next_if_token_type_ne`. -/
theorem FPost.nextIfNe {β : Type} {cur : List Token} {later : List (List Token)} {ty : TokenType}
    {E : Fail → List Token → List Token → Prop} {f : Option Token → Prog β}
    (h1 : (∀ t r, cur = t :: r → t.tokenType = ty) → FPost cur later E (exec (f none) ⟨cur, later⟩))
    (h2 : ∀ t r, cur = t :: r → t.tokenType ≠ ty →
      FPost r later (fun f u c => E f (t :: u) c) (exec (f (some t)) ⟨r, later⟩)) :
    FPost cur later E (exec (nextIfTokenTypeNe ty >>= f) ⟨cur, later⟩) := by
  refine .bind (pre := []) (F := True) .nextIfNe ?_ ?_
  · cases cur with
    | nil => trivial
    | cons t r => rw [exec_nextIfTokenTypeNe_cons]; split <;> trivial
  · rintro o used cur' - (⟨rfl, rfl, rfl, h⟩ | ⟨t, rfl, rfl, rfl, h⟩)
    · exact h1 h
    · exact h2 t _ rfl h

/-! ## Identifiers and variable accesses -/

theorem Identifier.parse_fail (cur : List Token) (later : List (List Token)) (first : Token) :
    FPost cur later (fun f used rest => IdentFail rest (first :: used) f)
      (exec (Identifier.parse first) ⟨cur, later⟩) := by
  unfold Identifier.parse
  split
  · exact .pure
  · rename_i h
    refine .next ?_ ?_
    · rintro rfl
      exact .fail (.srsEnd h rfl)
    · rintro t r rfl
      dsimp only
      split
      · exact .pure
      · rename_i ht
        exact .fail (.srsNotIdent h fun ⟨n, hn⟩ => ht n hn)
  · rename_i h1 h2
    exact .fail (.notIdent (fun ⟨n, hn⟩ => h1 n hn) h2)

theorem VariableAccess.parseSlots_fail (n : Nat) (i : Identifier) (hi : i.WF) (ss : List VariableAccessSlot)
    (hs : ∀ s ∈ ss, s.WF) (cur : List Token) (later : List (List Token)) :
    FPost cur later (fun f used rest => AccessFail rest (i.toks ++ (ss.flatMap (·.toks) ++ used)) f)
      (exec (VariableAccess.parseSlots n) ⟨cur, later⟩) := by
  induction n generalizing ss cur with
  | zero => trivial
  | succ n ih =>
    unfold VariableAccess.parseSlots
    refine .nextIf (fun _ => .pure) ?_
    rintro z r rfl hz
    have hz : z.tokenType = .bukkitSlotAccess := by simpa using hz
    refine .next ?_ ?_
    · rintro rfl
      refine .fail ?_
      have := AccessFail.slotEnd (rest := []) (v := ⟨i, ss⟩) ⟨hi, hs⟩ hz rfl
      simpa [VariableAccess.toks] using this
    · rintro t r rfl
      refine .bind (pre := [t]) (F := True) (Identifier.parse_post _ _ _ _ t (by simp))
        ((Identifier.parse_fail r later t).mono ?_) ?_
      · intro f used rest _ h
        have := AccessFail.slot (v := ⟨i, ss⟩) ⟨hi, hs⟩ hz h
        simpa [VariableAccess.toks] using this
      · rintro j used cur' rfl ⟨h1, h2⟩
        have h3 : ∀ s ∈ ss ++ [⟨z, j⟩], VariableAccessSlot.WF s := by
          intro s hs'
          rcases List.mem_append.1 hs' with h | h
          · exact hs s h
          · cases List.mem_singleton.1 h
            exact ⟨hz, h2⟩
        refine .map ((ih (ss ++ [⟨z, j⟩]) h3 cur').mono ?_)
        intro f used' rest _ h
        have h4 : VariableAccessSlot.toks ⟨z, j⟩ = z :: t :: used := by rw [h1]; rfl
        simpa [h4] using h

theorem VariableAccess.parse_fail (n : Nat) (cur : List Token) (later : List (List Token)) (first : Token) :
    FPost cur later (fun f used rest => AccessFail rest (first :: used) f)
      (exec (VariableAccess.parse n first) ⟨cur, later⟩) := by
  unfold VariableAccess.parse
  refine .bind (pre := [first]) (F := True) (Identifier.parse_post _ _ _ _ first (by simp))
    ((Identifier.parse_fail cur later first).mono fun _ _ _ _ h => .name h) ?_
  rintro i used cur' rfl ⟨h1, h2⟩
  refine .map ((VariableAccess.parseSlots_fail n i h2 [] (by simp) cur' later).mono ?_)
  intro f used' rest _ h
  simpa [← h1] using h

/-! ## Expressions -/

theorem parseExpr_wf (n : Nat) (first : Token) (cur : List Token) (later : List (List Token)) :
    EPost [first] cur later (cur.length + 2 ≤ n)
      (fun e used cur' => first :: used = e.toks ∧ e.WF ∧ e.Follow cur')
      (exec (parseExpr n first) ⟨cur, later⟩) :=
  parseExpr_post' n first [first] cur later (by simp)

/-- What is to be shown for `parseExpr n first`. -/
def ExprFails (first : Token) (cur : List Token) (later : List (List Token)) : Res Stmts Expr → Prop :=
  FPost cur later (fun f used rest => ExprFail rest (first :: used) f)

/-- What is known of the recursive calls. -/
structure ExprKnown (expr : Token → Prog Expr) (later : List (List Token)) : Prop where
  post : ∃ F : Prop, ∀ first cur, EPost [first] cur later F
    (fun e used cur' => first :: used = e.toks ∧ e.WF ∧ e.Follow cur') (exec (expr first) ⟨cur, later⟩)
  fail : ∀ first cur, ExprFails first cur later (exec (expr first) ⟨cur, later⟩)

theorem EPost.noFuel {α : Type} {pre cur : List Token} {later : List (List Token)} {F : Prop}
    {Q : α → List Token → List Token → Prop} {r : Res Stmts α} (h : EPost pre cur later F Q r) :
    EPost pre cur later False Q r := h.mono (fun _ h => h) False.elim fun _ _ _ _ h => h

theorem notFirst_of {k : Keyword} {ts : List Token} (h : ∀ t r, ts = t :: r → t.isKeyword k = false) :
    NotFirst k ts := fun t r hr hk => by
  have := h t r hr
  rw [Token.isKeyword_iff.2 hk] at this
  cases this

theorem ExprFail.ne_nil {rest ts : List Token} {f : Fail} (h : ExprFail rest ts f) : ∃ t r, ts = t :: r := by
  cases h with
  | access h _ => obtain ⟨t, r, h, -⟩ := h; exact ⟨t, r, h⟩
  | _ => exact ⟨_, _, rfl⟩

theorem Expr.Follow.head {e : Expr} {t : Token} {r r' : List Token} (h : e.Follow (t :: r)) : e.Follow (t :: r') :=
  ⟨fun ho => by simpa using h.1 ho, fun ha => NoSlot.cons_iff.2 (NoSlot.cons_iff.1 (h.2 ha))⟩

theorem parseBinary_fail {expr : Token → Prog Expr} {later : List (List Token)} (he : ExprKnown expr later)
    (cur : List Token) (op : BinaryOpt) (hk : op.token.Is op.keyword) :
    ExprFails op.token cur later (exec (parseBinary expr op) ⟨cur, later⟩) := by
  obtain ⟨⟨F, hp⟩, hf⟩ := he
  unfold parseBinary
  refine .next ?_ ?_
  · rintro rfl
    exact .fail (.binaryEnd hk rfl)
  · rintro t r rfl
    refine .bind (hp t r) ((hf t r).mono fun _ _ _ _ h => .binaryLeft hk h) ?_
    rintro l used cur' rfl ⟨h1, h2, h3⟩
    have key : ∀ (an : Option Token) cur'', cur' = an.toList ++ cur'' → (∀ t ∈ an, t.Is .AN) →
        (an = none → NotFirst .AN cur'') →
        FPost cur'' later (fun f u c => ExprFail c (op.token :: t :: (used ++ (an.toList ++ u))) f)
          (exec (do match ← Lol.next with
              | none => Lol.fail (.expression (.missingOperands op.token))
              | some rightFirst =>
                let right ← expr rightFirst
                pure (Expr.binary op l an right)) ⟨cur'', later⟩) := by
      rintro an cur'' rfl han hn
      refine .next ?_ ?_
      · rintro rfl
        refine .fail ?_
        have := ExprFail.binaryMiddle (rest := []) hk h2 (by simpa using h3) han rfl
        rw [← h1] at this
        simpa using this
      · rintro u r rfl
        refine .map ((hf u r).mono ?_)
        rintro f used' rest rfl h
        have hfol : l.Follow (an.toList ++ (u :: used')) := by
          cases an with
          | none => exact Expr.Follow.head h3
          | some a => exact Expr.Follow.head h3
        have := ExprFail.binaryRight (an := an) hk h2 hfol han
          (fun ha t r' hr hk => by cases hr; exact hn ha u _ rfl hk) h
        rw [← h1] at this
        simpa using this
    refine .nextIf ?_ ?_
    · intro h
      exact (key none cur' rfl (by simp) (fun _ => notFirst_of h)).mono fun _ _ _ _ h => by simpa using h
    · rintro a r rfl ha
      exact (key (some a) r rfl (by simpa using Token.isKeyword_iff.1 ha) (by simp)).mono
        fun _ _ _ _ h => by simpa using h

theorem parseUnary_fail {expr : Token → Prog Expr} {later : List (List Token)} (he : ExprKnown expr later)
    (cur : List Token) (op : UnaryOpt) (hk : op.token.Is op.keyword) :
    ExprFails op.token cur later (exec (parseUnary expr op) ⟨cur, later⟩) := by
  obtain ⟨⟨F, hp⟩, hf⟩ := he
  unfold parseUnary
  refine .next ?_ ?_
  · rintro rfl
    exact .fail (.unaryEnd hk rfl)
  · rintro t r rfl
    exact .map ((hf t r).mono fun _ _ _ _ h => .unary hk h)

theorem Before.append {es : List Operand} {e : Expr} {an : Option Token} {rest : List Token}
    (h : Before es (e.toks ++ (an.toList ++ rest))) (he : e.WF) (hf : e.Follow (an.toList ++ rest))
    (han : ∀ t ∈ an, t.Is .AN) (hn : an = none → NotFirst .AN rest) : Before (es ++ [.mk e an]) rest := by
  have hto : ∀ es, toksOperands (es ++ [.mk e an]) ++ rest = toksOperands es ++ (e.toks ++ (an.toList ++ rest)) := by
    intro es
    induction es with
    | nil => simp [toksOperands]
    | cons o es ih =>
      obtain ⟨e', an'⟩ := o
      simp [toksOperands, ih]
  induction es with
  | nil => exact ⟨he, by simpa [toksOperands] using hf, han, by simpa [toksOperands] using hn, trivial⟩
  | cons o es ih =>
    obtain ⟨e', an'⟩ := o
    obtain ⟨h1, h2, h3, h4, h5⟩ := h
    rw [← hto] at h2 h4
    exact ⟨h1, h2, h3, h4, ih h5⟩

theorem toksOperands_append (a b : List Operand) : toksOperands (a ++ b) = toksOperands a ++ toksOperands b := by
  induction a with
  | nil => rfl
  | cons o a ih =>
    obtain ⟨e, an⟩ := o
    simp [toksOperands, ih]

/-- Only the first token after the operands counts. -/
theorem Before.head {es : List Operand} {t : Token} {r r' : List Token} (h : Before es (t :: r)) :
    Before es (t :: r') := by
  induction es with
  | nil => trivial
  | cons o es ih =>
    obtain ⟨e, an⟩ := o
    obtain ⟨h1, h2, h3, h4, h5⟩ := h
    have hcons : ∃ u, ∀ x, ∃ y, an.toList ++ (toksOperands es ++ t :: x) = u :: y := by
      cases an with
      | some a => exact ⟨a, fun x => ⟨_, rfl⟩⟩
      | none =>
        cases es with
        | nil => exact ⟨t, fun x => ⟨_, rfl⟩⟩
        | cons o es =>
          obtain ⟨e', an'⟩ := o
          obtain ⟨u, us, hu⟩ := e'.toks_ne
          exact ⟨u, fun x => ⟨us ++ (an'.toList ++ toksOperands es) ++ t :: x, by simp [toksOperands, hu]⟩⟩
    have hcons' : ∃ u, ∀ x, ∃ y, toksOperands es ++ t :: x = u :: y := by
      cases es with
      | nil => exact ⟨t, fun x => ⟨_, rfl⟩⟩
      | cons o es =>
        obtain ⟨e', an'⟩ := o
        obtain ⟨u, us, hu⟩ := e'.toks_ne
        exact ⟨u, fun x => ⟨us ++ (an'.toList ++ toksOperands es) ++ t :: x, by simp [toksOperands, hu]⟩⟩
    obtain ⟨u, hu⟩ := hcons
    obtain ⟨u', hu'⟩ := hcons'
    refine ⟨h1, ?_, h3, ?_, ih h5⟩
    · obtain ⟨y, hy⟩ := hu r
      obtain ⟨y', hy'⟩ := hu r'
      rw [hy] at h2
      rw [hy']
      exact h2.head
    · intro ha x y hxy
      obtain ⟨z, hz⟩ := hu' r
      obtain ⟨z', hz'⟩ := hu' r'
      rw [hz'] at hxy
      cases hxy
      exact h4 ha u' z hz

theorem parseOperands_fail {expr : Token → Prog Expr} {later : List (List Token)} (he : ExprKnown expr later)
    (op : NaryOpt) (hk : op.token.Is op.keyword) (m : Nat) (es : List Operand) (cur : List Token)
    (hb : Before es cur) :
    FPost cur later (fun f used rest => ExprFail rest (op.token :: (toksOperands es ++ used)) f)
      (exec (parseOperands expr m) ⟨cur, later⟩) := by
  obtain ⟨⟨F, hp⟩, hf⟩ := id he
  induction m generalizing es cur with
  | zero => trivial
  | succ m ih =>
    unfold parseOperands
    refine .nextIfNe (fun _ => .pure) ?_
    rintro t r rfl ht
    refine .bind (hp t r) ((hf t r).mono ?_) ?_
    · rintro f used rest rfl h
      refine .nary hk hb.head ?_ h
      rintro t' r' ⟨⟩ hk'
      exact ht hk'
    · rintro e used cur' rfl ⟨h1, h2, h3⟩
      have key : ∀ (an : Option Token) cur'', cur' = an.toList ++ cur'' → (∀ t ∈ an, t.Is .AN) →
          (an = none → NotFirst .AN cur'') →
          FPost cur'' later
            (fun f u c => ExprFail c (op.token :: (toksOperands es ++ (t :: (used ++ (an.toList ++ u))))) f)
            (exec (do
              let more ← parseOperands expr m
              pure (Operand.mk e an :: more)) ⟨cur'', later⟩) := by
        rintro an cur'' rfl han hn
        have hb' : Before (es ++ [.mk e an]) cur'' := by
          refine Before.append ?_ h2 h3 han hn
          rw [← h1]
          simpa using hb
        refine .map ((ih (es ++ [.mk e an]) cur'' hb').mono ?_)
        intro f u c _ h
        have h4 : toksOperands [.mk e an] = t :: (used ++ an.toList) := by
          simp [toksOperands, ← h1]
        simpa [toksOperands_append, h4] using h
      refine .nextIfEq ?_ ?_
      · intro h
        have := key none cur' rfl (by simp) (fun _ t r hr hk => h t r hr hk)
        simpa using this
      · rintro a r rfl ha
        have := key (some a) r rfl (by simpa [Token.Is] using ha) (by simp)
        simpa using this

theorem parseNary_fail {expr : Token → Prog Expr} {later : List (List Token)} (he : ExprKnown expr later)
    (n : Nat) (cur : List Token) (op : NaryOpt) (hk : op.token.Is op.keyword) :
    ExprFails op.token cur later (exec (parseNary expr n op) ⟨cur, later⟩) := by
  have h := parseOperands_fail he op hk n [] cur trivial
  unfold parseNary
  refine .bindSafe (h.mono fun _ _ _ _ h => by simpa [toksOperands] using h) ?_
  intro es s
  obtain ⟨cur', later'⟩ := s
  cases cur' <;> exact ⟨_, _, rfl⟩

theorem parseExpr_fail (n : Nat) (first : Token) (cur : List Token) (later : List (List Token)) :
    ExprFails first cur later (exec (parseExpr n first) ⟨cur, later⟩) := by
  induction n generalizing first cur with
  | zero => trivial
  | succ n ih =>
    have he : ExprKnown (parseExpr n) later :=
      ⟨⟨False, fun first cur => (parseExpr_wf n first cur later).noFuel⟩, ih⟩
    have access : (first.IsIdent ∨ first.Is .SRS) → ExprFails first cur later (exec (do
        let v ← VariableAccess.parse n first
        pure (.value (.variableAccess v))) ⟨cur, later⟩) := fun h =>
      .map ((VariableAccess.parse_fail n cur later first).mono fun _ _ _ _ h' => .access ⟨_, _, rfl, h⟩ h')
    unfold parseExpr
    split
    case h_1 => rename_i h; exact access (.inl ⟨_, h⟩)
    case h_2 => rename_i h; exact access (.inr h)
    case h_3 => exact .pure
    case h_4 => exact .pure
    case h_21 => rename_i h; exact .panic (.maek h)
    case h_22 =>
      refine .fail (.start ?_)
      rintro (⟨n, h⟩ | ⟨v, h⟩ | ⟨k, hk, h⟩)
      · rename_i hn _ _ _ _ _ _ _ _ _ _ _ _ _ _ _ _ _ _ _ _
        exact hn n h
      · rename_i hn _ _ _ _ _ _ _ _ _ _ _ _ _ _ _ _ _ _
        exact hn v h
      · simp only [exprKeywords, List.mem_cons, List.not_mem_nil, or_false] at hk
        have h : first.tokenType = _ := h
        rcases hk with rfl | rfl | rfl | rfl | rfl | rfl | rfl | rfl | rfl | rfl | rfl | rfl | rfl | rfl | rfl | rfl |
          rfl | rfl | rfl <;> contradiction
    case h_8 => rename_i h; exact parseUnary_fail he cur (.not first) h
    case h_9 => rename_i h; exact parseNary_fail he n cur (.allOf first) h
    case h_10 => rename_i h; exact parseNary_fail he n cur (.anyOf first) h
    case h_20 => rename_i h; exact parseNary_fail he n cur (.smoosh first) h
    all_goals
      rename_i h
      exact parseBinary_fail he cur _ h

/-! ## Statements -/

theorem tryFrom_none' {t : Token} (h : ASTType.tryFrom t = none) : ∀ k ∈ typeKeywords, ¬ t.Is k := by
  intro k hk hk'
  have hk' : t.tokenType = _ := hk'
  simp only [typeKeywords, List.mem_cons, List.not_mem_nil, or_false] at hk
  rcases hk with rfl | rfl | rfl | rfl | rfl | rfl <;> simp [ASTType.tryFrom, hk'] at h

/-- What is to be shown for a statement parser that has read `before`. -/
def SimpleFails {α : Type} (before : List Token) (cur : List Token) (later : List (List Token)) :
    Res Stmts α → Prop :=
  FPost cur later (fun f used rest => SimpleFail rest (before ++ used) f)

theorem IHasA.parse_fail (n : Nat) (first : Token) (cur : List Token) (later : List (List Token))
    (hk : first.Is .I_HAS_A) : SimpleFails [first] cur later (exec (IHasA.parse n first) ⟨cur, later⟩) := by
  unfold IHasA.parse
  refine .next ?_ ?_
  · rintro rfl
    exact .fail (.declarationEnd hk rfl)
  · rintro t r rfl
    dsimp only
    split
    · rename_i hv
      rw [isValid_iff] at hv
      refine .bind (pre := [t]) (F := True) (Identifier.parse_post _ _ _ _ t (by simp))
        ((Identifier.parse_fail r later t).mono fun _ _ _ _ h => .declarationSrs hk ⟨_, _, rfl, hv⟩ h) ?_
      rintro i used cur' rfl ⟨h1, h2⟩
      refine .next (fun _ => .pure) ?_
      rintro u r rfl
      dsimp only
      split
      · rename_i hu
        rw [Token.isKeyword_iff] at hu
        refine .next ?_ ?_
        · rintro rfl
          refine .fail ?_
          have := SimpleFail.declarationNoValue (rest := []) hk h2 hu rfl
          rw [← h1] at this
          simpa using this
        · rintro w r rfl
          dsimp only
          split
          · exact .pure
          · rename_i hty
            refine .map ((parseExpr_fail n w r later).mono ?_)
            intro f used' rest _ h
            have := SimpleFail.declarationValue hk h2 hu
              (fun k hk t r hr => by cases hr; exact tryFrom_none' hty k hk) h
            rw [← h1] at this
            simpa using this
      · rename_i hu
        rw [Token.isKeyword_iff] at hu
        refine .fail ?_
        have := SimpleFail.declarationItz (rest := r) hk h2 hu
        rw [← h1] at this
        simpa using this
    · rename_i hv
      rw [isValid_iff, not_or] at hv
      exact .fail (.declarationName hk hv.1 hv.2)

theorem FollowAll.append {es : List Expr} {e : Expr} {rest : List Token} (h : FollowAll es (e.toks ++ rest))
    (he : e.WF) (hf : e.Follow rest) : FollowAll (es ++ [e]) rest := by
  induction es with
  | nil => exact ⟨he, by simpa using hf, trivial⟩
  | cons x es ih =>
    obtain ⟨h1, h2, h3⟩ := h
    exact ⟨h1, by simpa using h2, ih h3⟩

theorem FollowAll.head {es : List Expr} {t : Token} {r r' : List Token} (h : FollowAll es (t :: r)) :
    FollowAll es (t :: r') := by
  induction es with
  | nil => trivial
  | cons e es ih =>
    obtain ⟨h1, h2, h3⟩ := h
    refine ⟨h1, ?_, ih h3⟩
    cases es with
    | nil => exact Expr.Follow.head h2
    | cons e' es =>
      obtain ⟨u, us, hu⟩ := e'.toks_ne
      rw [List.flatMap_cons, hu] at h2 ⊢
      exact Expr.Follow.head h2

theorem Visible.parseExpressions_fail (n m : Nat) (first : Token) (hk : first.Is .VISIBLE) (es : List Expr)
    (cur : List Token) (later : List (List Token)) (hf : FollowAll es cur) :
    SimpleFails (first :: es.flatMap Expr.toks) cur later
      (exec (Visible.parseExpressions n m) ⟨cur, later⟩) := by
  induction m generalizing es cur with
  | zero => trivial
  | succ m ih =>
    unfold Visible.parseExpressions
    refine .nextIfNe (fun _ => .pure) ?_
    rintro t r rfl ht
    refine .bind (parseExpr_wf n t r later) ((parseExpr_fail n t r later).mono ?_) ?_
    · rintro f used rest rfl h
      exact .visible hk hf.head (fun x r hr => by cases hr; exact ht) h
    · rintro e used cur' rfl ⟨h1, h2, h3⟩
      refine .map ((ih (es ++ [e]) cur' (FollowAll.append (by rw [← h1]; simpa using hf) h2 h3)).mono ?_)
      intro f used' rest _ h
      simpa [← h1] using h

theorem Visible.parse_fail (n : Nat) (first : Token) (cur : List Token) (later : List (List Token))
    (hk : first.Is .VISIBLE) : SimpleFails [first] cur later (exec (Visible.parse n first) ⟨cur, later⟩) := by
  unfold Visible.parse
  refine .bindSafe (Visible.parseExpressions_fail n n first hk [] cur later trivial) ?_
  intro es s
  obtain ⟨cur', later'⟩ := s
  cases cur' with
  | nil => exact ⟨_, _, rfl⟩
  | cons t r =>
    simp only [exec_bind, exec_nextIfTokenTypeEq_cons]
    split <;> exact ⟨_, _, rfl⟩

theorem Gimmeh.parse_fail (n : Nat) (first : Token) (cur : List Token) (later : List (List Token))
    (hk : first.Is .GIMMEH) : SimpleFails [first] cur later (exec (Gimmeh.parse n first) ⟨cur, later⟩) := by
  unfold Gimmeh.parse
  refine .next ?_ ?_
  · rintro rfl
    exact .fail (.gimmehEnd hk rfl)
  · rintro t r rfl
    exact .map ((VariableAccess.parse_fail n r later t).mono fun _ _ _ _ h => .gimmeh hk h)

theorem FoundYr.parse_fail (n : Nat) (first : Token) (cur : List Token) (later : List (List Token))
    (hk : first.Is .FOUND_YR) : SimpleFails [first] cur later (exec (FoundYr.parse n first) ⟨cur, later⟩) := by
  unfold FoundYr.parse
  refine .next ?_ ?_
  · rintro rfl
    exact .fail (.foundYrEnd hk rfl)
  · rintro t r rfl
    exact .map ((parseExpr_fail n t r later).mono fun _ _ _ _ h => .foundYr hk h)

theorem VariableAssignment.parse_fail (n : Nat) (v : VariableAccess) (hv : v.WF) (r : Token) (hr : r.Is .R)
    (cur : List Token) (later : List (List Token)) :
    SimpleFails v.toks (r :: cur) later (exec (VariableAssignment.parse n v) ⟨r :: cur, later⟩) := by
  unfold VariableAssignment.parse
  refine .next (fun h => by cases h) ?_
  rintro t r ⟨⟩
  simp only [isKeyword_true hr, if_true]
  refine .next ?_ ?_
  · rintro rfl
    exact .fail (.assignmentEnd hv hr rfl)
  · rintro t r rfl
    exact .map ((parseExpr_fail n t r later).mono fun _ _ _ _ h => .assignmentValue hv hr h)

theorem BukkitSetSlot.parse_fail (n : Nat) (v : VariableAccess) (hv : v.WF) (t : Token) (ht : t.Is .HAS_A)
    (cur : List Token) (later : List (List Token)) :
    SimpleFails v.toks (t :: cur) later (exec (BukkitSetSlot.parse n v) ⟨t :: cur, later⟩) := by
  unfold BukkitSetSlot.parse
  refine .next (fun h => by cases h) ?_
  rintro t r ⟨⟩
  simp only [isKeyword_true ht, if_true]
  refine .next ?_ ?_
  · rintro rfl
    exact .fail (.setSlotEnd hv ht rfl)
  · rintro u r rfl
    refine .bind (pre := [u]) (F := True) (Identifier.parse_post _ _ _ _ u (by simp))
      ((Identifier.parse_fail r later u).mono fun _ _ _ _ h => .setSlotName hv ht h) ?_
    rintro i used cur' rfl ⟨h1, h2⟩
    refine .next ?_ ?_
    · rintro rfl
      refine .fail ?_
      have := SimpleFail.setSlotNoItz (rest := []) hv ht h2 rfl
      rw [← h1] at this
      simpa using this
    · rintro w r rfl
      dsimp only
      split
      · rename_i hw
        rw [Token.isKeyword_iff] at hw
        refine .next ?_ ?_
        · rintro rfl
          refine .fail ?_
          have := SimpleFail.setSlotNoValue (rest := []) hv ht h2 hw rfl
          rw [← h1] at this
          simpa using this
        · rintro x r rfl
          refine .map ((parseExpr_fail n x r later).mono ?_)
          intro f used' rest _ h
          have := SimpleFail.setSlotValue hv ht h2 hw h
          rw [← h1] at this
          simpa using this
      · rename_i hw
        rw [Token.isKeyword_iff] at hw
        refine .fail ?_
        have := SimpleFail.setSlotItz (rest := r) hv ht h2 hw
        rw [← h1] at this
        simpa using this

theorem IIz.parseArguments_fail (n m : Nat) (cur : List Token) (later : List (List Token)) :
    FPost cur later (fun f used rest => ArgsFail rest used f)
      (exec (IIz.parseArguments n m) ⟨cur, later⟩) := by
  induction m generalizing cur with
  | zero => trivial
  | succ m ih =>
    unfold IIz.parseArguments
    refine .nextIf (fun _ => .pure) ?_
    rintro yr r rfl hyr
    rw [Token.isKeyword_iff] at hyr
    refine .next ?_ ?_
    · rintro rfl
      exact .fail (.yrEnd hyr rfl)
    · rintro t r rfl
      refine .bind (parseExpr_wf n t r later)
        ((parseExpr_fail n t r later).mono fun _ _ _ _ h => .argument hyr h) ?_
      rintro e used cur' rfl ⟨h1, h2, h3⟩
      refine .nextIf (fun _ => .pure) ?_
      rintro an r rfl han
      rw [Token.isKeyword_iff] at han
      refine .map ((ih r).mono ?_)
      intro f used' rest _ h
      have := ArgsFail.later hyr h2 (fun ho => by have := h3.1 ho; simp at this) han h
      rw [← h1] at this
      simpa using this

/-- The arguments that are read are all there are. -/
theorem IIz.parseArguments_end (n m : Nat) (pre cur : List Token) (later : List (List Token)) :
    EPost pre cur later False (fun _ used cur' => ArgsEnd cur' used)
      (exec (IIz.parseArguments n m) ⟨cur, later⟩) := by
  induction m generalizing pre cur with
  | zero => exact fun h => h
  | succ m ih =>
    unfold IIz.parseArguments
    refine .bind .nextIf ?_
    rintro o used cur' - (⟨rfl, rfl, rfl, h⟩ | ⟨t, rfl, rfl, rfl, h⟩)
    · exact .pure (.nil (notFirst_of h))
    · rw [Token.isKeyword_iff] at h
      refine .bind .next ?_
      rintro o used' cur' - (⟨rfl, rfl, rfl, rfl⟩ | ⟨u, rfl, rfl, rfl⟩)
      · exact .fail rfl (by simp) (by simp)
      · refine .bind ((parseExpr_post' n u _ cur' later (by simp)).mono (fun _ h => h)
          False.elim fun _ _ _ _ h => h) ?_
        rintro e used cur' rfl ⟨h1, h2, h3⟩
        refine .bind .nextIf ?_
        rintro o used' cur'' - (⟨rfl, rfl, rfl, hn⟩ | ⟨w, rfl, rfl, rfl, hw⟩)
        · refine .pure ?_
          have := ArgsEnd.one h h2 h3 (notFirst_of hn)
          rw [← h1] at this
          simpa using this
        · rw [Token.isKeyword_iff] at hw
          refine .bind (ih _ cur'') ?_
          rintro es used' cur' rfl h4
          refine .pure ?_
          have := ArgsEnd.cons h h2 (fun ho => by have := h3.1 ho; simp at this) hw h4
          rw [← h1] at this
          simpa using this

theorem IIz.parse_fail (n : Nat) (first : Token) (cur : List Token) (later : List (List Token))
    (hk : first.Is .I_IZ) : SimpleFails [first] cur later (exec (IIz.parse n first) ⟨cur, later⟩) := by
  unfold IIz.parse
  refine .next ?_ ?_
  · rintro rfl
    exact .fail (.callEnd hk rfl)
  · rintro t r rfl
    refine .bind (VariableAccess.parse_post n [t] r later t (by simp))
      ((VariableAccess.parse_fail n r later t).mono fun _ _ _ _ h => .callName hk h) ?_
    rintro v used cur' rfl ⟨h1, h2, h3⟩
    refine .bind (IIz.parseArguments_end n n [] cur' later) ((IIz.parseArguments_fail n n cur' later).mono ?_) ?_
    · intro f used' rest _ h
      have := SimpleFail.callArguments hk h2 h
      rw [← h1] at this
      simpa using this
    · rintro es used' cur' rfl h4
      refine .next ?_ ?_
      · rintro rfl
        refine .fail ?_
        have := SimpleFail.callNoMkay (rest := []) hk h2 h4 rfl
        rw [← h1] at this
        simpa using this
      · rintro u r rfl
        dsimp only
        split
        · exact .pure
        · rename_i hu
          rw [Token.isKeyword_iff] at hu
          refine .fail ?_
          have hns : NoSlot (used' ++ [u]) := by
            cases used' with
            | nil => exact NoSlot.cons_iff.2 (NoSlot.cons_iff.1 h3)
            | cons a b => exact NoSlot.cons_iff.2 (NoSlot.cons_iff.1 h3)
          have := SimpleFail.callMkay (rest := r) hk h2 h4 hns hu
          rw [← h1] at this
          simpa using this

theorem parseAccessStatement_fail (n : Nat) (first : Token) (cur : List Token) (later : List (List Token))
    (hv : first.IsIdent ∨ first.Is .SRS) :
    SimpleFails [first] cur later (exec (parseAccessStatement n first) ⟨cur, later⟩) := by
  unfold parseAccessStatement
  refine .bind (VariableAccess.parse_post n [first] cur later first (by simp))
    ((VariableAccess.parse_fail n cur later first).mono fun _ _ _ _ h => .access ⟨_, _, rfl, hv⟩ h) ?_
  rintro v used cur' rfl ⟨h1, h2, h3⟩
  cases cur' with
  | nil =>
    rw [exec_bind, exec_peek_nil, Res.andThen_ok]
    trivial
  | cons t r =>
    rw [exec_bind, exec_peek_cons, Res.andThen_ok]
    dsimp only
    split
    · rename_i ht
      refine .map ((VariableAssignment.parse_fail n v h2 t ht r later).mono ?_)
      intro f u c _ h
      rw [← h1] at h
      simpa using h
    · rename_i ht
      refine .map ((BukkitSetSlot.parse_fail n v h2 t ht r later).mono ?_)
      intro f u c _ h
      rw [← h1] at h
      simpa using h
    · rename_i h4 h5
      refine ⟨[t], r, rfl, ?_⟩
      have := SimpleFail.accessThen (rest := r) h2 h4 h5 (h3 t r rfl)
      rw [← h1] at this
      simpa using this

theorem parseStatement_fail {t : Token} (ht : ∀ k ∈ blockKeywords, ¬ t.Is k) (n : Nat)
    (block : (Token → Bool) → Prog Block) (cur : List Token) (later : List (List Token)) :
    SimpleFails [t] cur later (exec (parseStatement block n t) ⟨cur, later⟩) := by
  simp only [blockKeywords, List.mem_cons, List.not_mem_nil, or_false, forall_eq_or_imp, forall_eq, Token.Is] at ht
  obtain ⟨n1, n2, n3, n4, n5⟩ := ht
  unfold parseStatement
  split
  · rename_i hv
    exact parseAccessStatement_fail n t cur later (isValid_iff.1 hv)
  · rename_i hv
    split
    · rename_i hk; exact .map (IHasA.parse_fail n t cur later hk)
    · rename_i hk; exact .map (Visible.parse_fail n t cur later hk)
    · rename_i hk; exact .map (Gimmeh.parse_fail n t cur later hk)
    · rename_i hk; exact .map (FoundYr.parse_fail n t cur later hk)
    · contradiction
    · exact .pure
    · exact .pure
    · rename_i hk; exact .map (IIz.parse_fail n t cur later hk)
    · contradiction
    · contradiction
    · contradiction
    · contradiction
    · rw [isValid_iff, not_or] at hv
      refine .map ((parseExpr_fail n t cur later).mono fun _ _ _ _ h => .expression ?_ hv.1 hv.2 h)
      intro k hk hk'
      simp only [statementKeywords, List.mem_cons, List.not_mem_nil, or_false] at hk
      have hk' : t.tokenType = _ := hk'
      rcases hk with rfl | rfl | rfl | rfl | rfl | rfl | rfl | rfl | rfl | rfl | rfl | rfl <;> contradiction

end Lol
