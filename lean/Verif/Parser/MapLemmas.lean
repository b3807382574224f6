import Verif.Parser.Exec
import Verif.Parser.Stmt
import Verif.Parser.MapSpec

/-! # The parsers commute with the replacement of tokens by tokens of the same kind -/

namespace Lol

/-! ## Kinds -/

/-- Token types of the same kind. -/
inductive SameKind : TokenType → TokenType → Prop
  | ident (a b : Str) : SameKind (.identifier a) (.identifier b)
  | value (a b : TokenValue) : SameKind (.value a) (.value b)
  | single (a b : Str) : SameKind (.commentSingleLine a) (.commentSingleLine b)
  | multi (a b : Str) : SameKind (.commentMultiLine a) (.commentMultiLine b)
  | symbol {a b : Str} : a ≠ ['?'] → b ≠ ['?'] → SameKind (.symbol a) (.symbol b)
  | same (ty : TokenType) : SameKind ty ty

theorem SameKind.of_kind {x y : TokenType} (h : x.kind = y.kind) : SameKind x y := by
  cases x <;> cases y <;> simp only [TokenType.kind] at h <;> first
    | exact .same _
    | exact .ident _ _
    | exact .value _ _
    | exact .single _ _
    | exact .multi _ _
    | (cases h; done)
    | (cases h; exact .same _)
    | skip
  case symbol.symbol a b =>
    by_cases ha : a = ['?'] <;> by_cases hb : b = ['?']
    · subst ha; subst hb; exact .same _
    · simp [ha, hb] at h
    · simp [ha, hb] at h
    · exact .symbol ha hb
  all_goals (split at h <;> cases h)

/-- `f` keeps the kind of every token. -/
abbrev KeepsKind (f : Token → Token) : Prop := ∀ t, (f t).tokenType.kind = t.tokenType.kind

theorem KeepsKind.same {f : Token → Token} (hf : KeepsKind f) (t : Token) :
    SameKind (f t).tokenType t.tokenType := .of_kind (hf t)

theorem KeepsKind.keyword {f : Token → Token} (hf : KeepsKind f) (k : Keyword) (t : Token) :
    (f t).isKeyword k = t.isKeyword k := by
  have h := hf.same t
  unfold Token.isKeyword
  generalize (f t).tokenType = x at h
  generalize t.tokenType = y at h
  cases h <;> rfl

theorem KeepsKind.typeEq {f : Token → Token} (hf : KeepsKind f) (t : Token) {ty : TokenType}
    (h : (∃ k, ty = .keyword k) ∨ ty = .bukkitSlotAccess ∨ ty = .exclamationMark ∨ ty = .comma ∨ ty = .ellipsis) :
    (f t).tokenType = ty ↔ t.tokenType = ty := by
  have hs := hf.same t
  generalize (f t).tokenType = x at hs
  generalize t.tokenType = y at hs
  rcases h with ⟨k, rfl⟩ | rfl | rfl | rfl | rfl <;> cases hs <;> simp

theorem KeepsKind.question {f : Token → Token} (hf : KeepsKind f) (t : Token) :
    (f t).isQuestion = t.isQuestion := by
  have h := hf.same t
  unfold Token.isQuestion
  generalize (f t).tokenType = x at h
  generalize t.tokenType = y at h
  cases h <;> simp_all

theorem KeepsKind.identifier {f : Token → Token} (hf : KeepsKind f) (t : Token) :
    (f t).isIdentifier = t.isIdentifier := by
  have h := hf.same t
  unfold Token.isIdentifier
  generalize (f t).tokenType = x at h
  generalize t.tokenType = y at h
  cases h <;> rfl

theorem KeepsKind.isValid {f : Token → Token} (hf : KeepsKind f) (t : Token) :
    VariableAccess.isValid (f t) = VariableAccess.isValid t := by
  have h := hf.same t
  unfold VariableAccess.isValid
  generalize (f t).tokenType = x at h
  generalize t.tokenType = y at h
  cases h <;> rfl

/-! ## Programs -/

/-- `q` is the program `p` on replaced tokens, with results replaced by `g`. -/
inductive Prog.Maps (f : Token → Token) {α β : Type} (g : α → β) : Prog α → Prog β → Prop
  | outOfFuel : Maps f g .outOfFuel .outOfFuel
  | ret (a : α) : Maps f g (.ret a) (.ret (g a))
  | err (e : ASTError) : Maps f g (.err e) (.err (e.map f))
  | panic (s : PanicSite) : Maps f g (.panic s) (.panic s)
  | next {k : Option Token → Prog α} {k' : Option Token → Prog β} : (∀ t, Maps f g (k t) (k' (t.map f))) →
      Maps f g (.next k) (.next k')
  | peek {k : Option Token → Prog α} {k' : Option Token → Prog β} : (∀ t, Maps f g (k t) (k' (t.map f))) →
      Maps f g (.peek k) (.peek k')
  | nextStatement {k : List Token → Prog α} {k' : List Token → Prog β} : (∀ t, Maps f g (k t) (k' (t.map f))) →
      Maps f g (.nextStatement k) (.nextStatement k')

namespace Prog

variable {f : Token → Token}

theorem Maps.pure' {α β : Type} {g : α → β} {a : α} {b : β} (h : b = g a) :
    Maps f g (pure a) (pure b) := by
  subst h; exact .ret a

theorem Maps.fail' {α β : Type} {g : α → β} {e e' : ASTError} (h : e' = e.map f) :
    Maps f g (fail e) (fail e') := by
  subst h; exact .err e

theorem Maps.bind {α β γ δ : Type} {g : α → β} {g' : γ → δ} {p : Prog α} {q : Prog β} {k : α → Prog γ}
    {k' : β → Prog δ} (h : Maps f g p q) (hk : ∀ a, Maps f g' (k a) (k' (g a))) :
    Maps f g' (p >>= k) (q >>= k') := by
  show Maps f g' (p.bind k) (q.bind k')
  induction h with
  | outOfFuel => exact .outOfFuel
  | ret a => exact hk a
  | err e => exact .err e
  | panic s => exact .panic s
  | next _ ih => exact .next ih
  | peek _ ih => exact .peek ih
  | nextStatement _ ih => exact .nextStatement ih

/-- Replacement in a `Result`. -/
def mapResult {α β : Type} (f : Token → Token) (g : α → β) : Except ASTError α → Except ASTError β
  | .ok a => .ok (g a)
  | .error e => .error (e.map f)

theorem Maps.toResult {α β : Type} {g : α → β} {p : Prog α} {q : Prog β} (h : Maps f g p q) :
    Maps f (mapResult f g) p.toResult q.toResult := by
  induction h with
  | outOfFuel => exact .outOfFuel
  | ret a => exact .ret (Except.ok a)
  | err e => exact .ret (Except.error e)
  | panic s => exact .panic s
  | next _ ih => exact .next ih
  | peek _ ih => exact .peek ih
  | nextStatement _ ih => exact .nextStatement ih

/-- Replacement in a list of statements. -/
def _root_.Lol.Stmts.map (f : Token → Token) (s : Stmts) : Stmts := ⟨s.cur.map f, s.later.map (·.map f)⟩

/-- Replacement in an outcome. -/
def _root_.Lol.Res.replace {α β : Type} (f : Token → Token) (g : α → β) : Res Stmts α → Res Stmts β
  | .ok a s => .ok (g a) (s.map f)
  | .err e s => .err (e.map f) (s.map f)
  | .panic p => .panic p
  | .outOfFuel => .outOfFuel

theorem Maps.exec {α β : Type} {g : α → β} {p : Prog α} {q : Prog β} (h : Maps f g p q) (s : Stmts) :
    exec q (s.map f) = (exec p s).replace f g := by
  unfold Lol.exec
  induction h generalizing s with
  | outOfFuel | ret | err | panic => rfl
  | @next k k' _ ih =>
    obtain ⟨_ | ⟨t, c⟩, l⟩ := s
    · exact ih none ⟨[], l⟩
    · exact ih (some t) ⟨c, l⟩
  | @peek k k' _ ih =>
    obtain ⟨_ | ⟨t, c⟩, l⟩ := s
    · exact ih none ⟨[], l⟩
    · exact ih (some t) ⟨t :: c, l⟩
  | @nextStatement k k' _ ih =>
    obtain ⟨c, _ | ⟨d, l⟩⟩ := s
    · exact ih c ⟨[], []⟩
    · exact ih c ⟨d, l⟩

theorem Maps.nextTok : Maps f (Option.map f) Lol.next Lol.next := .next fun o => .ret o

theorem Maps.peekTok : Maps f (Option.map f) Lol.peek Lol.peek := .peek fun o => .ret o

theorem Maps.nextStmt : Maps f (List.map f) Lol.nextStatement Lol.nextStatement := .nextStatement fun o => .ret o

theorem Maps.nextIf {g : Token → Bool} (hg : ∀ t, g (f t) = g t) :
    Maps f (Option.map f) (Lol.nextIf g) (Lol.nextIf g) := by
  refine .bind .peekTok fun o => ?_
  cases o with
  | none => exact .ret none
  | some t =>
    simp only [Option.map_some, hg]
    cases g t
    · exact .ret none
    · exact .nextTok

theorem Maps.nextIfEq {ty : TokenType} (hg : ∀ t, (f t).tokenType = ty ↔ t.tokenType = ty) :
    Maps f (Option.map f) (nextIfTokenTypeEq ty) (nextIfTokenTypeEq ty) := by
  refine .bind .peekTok fun o => ?_
  cases o with
  | none => exact .ret none
  | some t =>
    simp only [Option.map_some, hg]
    split
    · exact .nextTok
    · exact .ret none

theorem Maps.nextIfNe {ty : TokenType} (hg : ∀ t, (f t).tokenType = ty ↔ t.tokenType = ty) :
    Maps f (Option.map f) (nextIfTokenTypeNe ty) (nextIfTokenTypeNe ty) := by
  refine .bind .peekTok fun o => ?_
  cases o with
  | none => exact .ret none
  | some t =>
    simp only [Option.map_some, ne_eq, hg]
    split
    · exact .nextTok
    · exact .ret none

theorem Maps.shouldBeEmpty : Maps f id nextStatementShouldBeEmpty nextStatementShouldBeEmpty := by
  refine .bind .nextStmt fun o => ?_
  cases o with
  | nil => exact .ret ()
  | cons t c => exact .err (.tooManyTokens (t :: c))

end Prog

open Prog

section

variable {f : Token → Token} (hf : KeepsKind f)
include hf

theorem KeepsKind.key (k : Keyword) : ∀ t, (f t).isKeyword k = t.isKeyword k := fun t => hf.keyword k t

theorem identifier_maps (t : Token) :
    Maps f (·.map f) (Identifier.parse t) (Identifier.parse (f t)) := by
  have h := hf.same t
  unfold Identifier.parse
  generalize hx : (f t).tokenType = x at h
  generalize hy : t.tokenType = y at h
  cases h with
  | ident a b => exact .ret _
  | same =>
    cases x with
    | keyword k =>
      cases k
      case SRS =>
        refine .bind .nextTok fun o => ?_
        cases o with
        | none => exact .err _
        | some u =>
          have h' := hf.same u
          simp only [Option.map_some]
          generalize hx : (f u).tokenType = x at h'
          generalize hy : u.tokenType = y at h'
          cases h' with
          | ident a b => exact .ret _
          | same => cases x <;> first | exact .ret _ | exact .err _
          | _ => exact .err _
      all_goals exact .err _
    | identifier => exact .ret _
    | _ => exact .err _
  | _ => exact .err _

theorem slots_maps (n : Nat) :
    Maps f (List.map (·.map f)) (VariableAccess.parseSlots n) (VariableAccess.parseSlots n) := by
  induction n with
  | zero => exact .outOfFuel
  | succ n ih =>
    rw [VariableAccess.parseSlots]
    refine .bind (.nextIf fun t => by simp [hf.typeEq t (ty := .bukkitSlotAccess)]) fun o => ?_
    cases o with
    | none => exact .ret _
    | some t =>
      refine .bind .nextTok fun o => ?_
      cases o with
      | none => exact .err _
      | some t => exact .bind (identifier_maps hf t) fun i => .bind ih fun _ => .ret _

theorem access_maps (n : Nat) (t : Token) :
    Maps f (·.map f) (VariableAccess.parse n t) (VariableAccess.parse n (f t)) :=
  .bind (identifier_maps hf t) fun _ => .bind (slots_maps hf n) fun _ => .ret _

theorem binary_maps {p : Token → Prog Expr} (h : ∀ t, Maps f (·.map f) (p t) (p (f t))) (o : BinaryOpt) :
    Maps f (·.map f) (parseBinary p o) (parseBinary p (o.map f)) := by
  have ho : (o.map f).token = f o.token := by cases o <;> rfl
  unfold parseBinary
  rw [ho]
  refine .bind .nextTok fun u => ?_
  cases u with
  | none => exact .err _
  | some t =>
    refine .bind (h t) fun e => .bind (.nextIf (hf.key _)) fun an => .bind .nextTok fun u => ?_
    cases u with
    | none => exact .err _
    | some t => exact .bind (h t) fun r => .pure' (by simp [Expr.map])

omit hf in
theorem unary_maps {p : Token → Prog Expr} (h : ∀ t, Maps f (·.map f) (p t) (p (f t))) (o : UnaryOpt) :
    Maps f (·.map f) (parseUnary p o) (parseUnary p (o.map f)) := by
  have ho : (o.map f).token = f o.token := by cases o; rfl
  unfold parseUnary
  rw [ho]
  refine .bind .nextTok fun u => ?_
  cases u with
  | none => exact .err _
  | some t => exact .bind (h t) fun r => .pure' (by simp [Expr.map])

theorem operands_maps {p : Token → Prog Expr} (h : ∀ t, Maps f (·.map f) (p t) (p (f t))) (n : Nat) :
    Maps f (mapOperands f) (parseOperands p n) (parseOperands p n) := by
  induction n with
  | zero => exact .outOfFuel
  | succ n ih =>
    rw [parseOperands]
    refine .bind (.nextIfNe fun t => hf.typeEq t (.inl ⟨_, rfl⟩)) fun o => ?_
    cases o with
    | none => exact .pure' (by simp [mapOperands])
    | some t =>
      exact .bind (h t) fun _ => .bind (.nextIfEq fun t => hf.typeEq t (.inl ⟨_, rfl⟩)) fun _ =>
        .bind ih fun _ => .pure' (by simp [mapOperands])

theorem nary_maps {p : Token → Prog Expr} (h : ∀ t, Maps f (·.map f) (p t) (p (f t))) (n : Nat) (o : NaryOpt) :
    Maps f (·.map f) (parseNary p n o) (parseNary p n (o.map f)) :=
  .bind (operands_maps hf h n) fun _ => .bind .nextTok fun _ => .pure' (by simp [Expr.map])

theorem expr_maps (n : Nat) (t : Token) : Maps f (·.map f) (parseExpr n t) (parseExpr n (f t)) := by
  induction n generalizing t with
  | zero => exact .outOfFuel
  | succ n ih =>
    have hb := binary_maps hf ih
    have hu := unary_maps ih
    have hn := nary_maps hf ih n
    have ha : Maps f (·.map f)
        (do let v ← VariableAccess.parse n t; pure (Expr.value (.variableAccess v)))
        (do let v ← VariableAccess.parse n (f t); pure (Expr.value (.variableAccess v))) :=
      .bind (access_maps hf n t) fun _ => .pure' (by simp [Expr.map, ExprValue.map])
    have h := hf.same t
    rw [parseExpr, parseExpr]
    generalize hx : (f t).tokenType = x at h
    generalize hy : t.tokenType = y at h
    cases h with
    | ident a b => exact ha
    | value a b => exact .pure' (by simp [Expr.map, ExprValue.map])
    | same =>
      cases x with
      | keyword k =>
        cases k <;> first
          | exact .err _
          | exact hb _
          | exact hu _
          | exact hn _
          | exact ha
          | exact .pure' (by simp [Expr.map, ExprValue.map])
          | exact .panic _
      | identifier => exact ha
      | value => exact .pure' (by simp [Expr.map, ExprValue.map])
      | _ => exact .err _
    | _ => exact .err _

/-! ## Statements -/

theorem IHasA.maps (n : Nat) (t : Token) : Maps f (·.map f) (IHasA.parse n t) (IHasA.parse n (f t)) := by
  refine .bind .nextTok fun o => ?_
  cases o with
  | none => exact .err _
  | some u =>
    simp only [Option.map_some, hf.isValid]
    split
    · refine .bind (identifier_maps hf u) fun i => .bind .nextTok fun o => ?_
      cases o with
      | none => exact .ret _
      | some v =>
        simp only [Option.map_some, hf.keyword]
        split
        · refine .bind .nextTok fun o => ?_
          cases o with
          | none => exact .err _
          | some w =>
            simp only [Option.map_some]
            have hw : ASTType.tryFrom (f w) = (ASTType.tryFrom w).map (·.map f) := by
              have h := hf.same w
              unfold ASTType.tryFrom
              generalize (f w).tokenType = x at h
              generalize w.tokenType = y at h
              cases h <;> first | rfl | skip
              cases x <;> first | rfl | skip
              next k => cases k <;> rfl
            rw [hw]
            cases ASTType.tryFrom w with
            | some ty => exact .ret _
            | none => exact .bind (expr_maps hf n w) fun e => .pure' rfl
        · exact .err _
    · exact .err _

theorem visibleExprs_maps (m n : Nat) :
    Maps f (List.map (·.map f)) (Visible.parseExpressions m n) (Visible.parseExpressions m n) := by
  induction n with
  | zero => exact .outOfFuel
  | succ n ih =>
    rw [Visible.parseExpressions]
    refine .bind (.nextIfNe fun t => hf.typeEq t (by simp)) fun o => ?_
    cases o with
    | none => exact .ret _
    | some t => exact .bind (expr_maps hf m t) fun i => .bind ih fun _ => .ret _

theorem Visible.maps (n : Nat) (t : Token) : Maps f (·.map f) (Visible.parse n t) (Visible.parse n (f t)) :=
  .bind (visibleExprs_maps hf n n) fun _ => .bind (.nextIfEq fun t => hf.typeEq t (by simp)) fun _ => .ret _

theorem Gimmeh.maps (n : Nat) (t : Token) : Maps f (·.map f) (Gimmeh.parse n t) (Gimmeh.parse n (f t)) := by
  refine .bind .nextTok fun o => ?_
  cases o with
  | none => exact .err _
  | some u => exact .bind (access_maps hf n u) fun _ => .ret _

theorem FoundYr.maps (n : Nat) (t : Token) : Maps f (·.map f) (FoundYr.parse n t) (FoundYr.parse n (f t)) := by
  refine .bind .nextTok fun o => ?_
  cases o with
  | none => exact .err _
  | some u => exact .bind (expr_maps hf n u) fun _ => .ret _

omit hf in
theorem Hai.maps (t : Token) : Maps f (·.map f) (Hai.parse t) (Hai.parse (f t)) :=
  .bind .nextStmt fun _ => .ret _

omit hf in
theorem VariableAccess.lastToken_map (v : VariableAccess) : (v.map f).lastToken = f v.lastToken := by
  unfold VariableAccess.lastToken VariableAccess.map
  rw [List.getLast?_map]
  cases v.accesses.getLast? <;> rfl

theorem VariableAssignment.maps (n : Nat) (v : VariableAccess) :
    Maps f (·.map f) (VariableAssignment.parse n v) (VariableAssignment.parse n (v.map f)) := by
  unfold VariableAssignment.parse
  rw [VariableAccess.lastToken_map]
  refine .bind .nextTok fun o => ?_
  cases o with
  | none => exact .err _
  | some u =>
    simp only [Option.map_some, hf.keyword]
    split
    · refine .bind .nextTok fun o => ?_
      cases o with
      | none => exact .err _
      | some w => exact .bind (expr_maps hf n w) fun e => .ret _
    · exact .err _

theorem BukkitSetSlot.maps (n : Nat) (v : VariableAccess) :
    Maps f (·.map f) (BukkitSetSlot.parse n v) (BukkitSetSlot.parse n (v.map f)) := by
  unfold BukkitSetSlot.parse
  rw [VariableAccess.lastToken_map]
  refine .bind .nextTok fun o => ?_
  cases o with
  | none => exact .err _
  | some u =>
    simp only [Option.map_some, hf.keyword]
    split
    · refine .bind .nextTok fun o => ?_
      cases o with
      | none => exact .err _
      | some w =>
        refine .bind (identifier_maps hf w) fun i => .bind .nextTok fun o => ?_
        cases o with
        | none => exact .err _
        | some u =>
          simp only [Option.map_some, hf.keyword]
          split
          · refine .bind .nextTok fun o => ?_
            cases o with
            | none => exact .err _
            | some w => exact .bind (expr_maps hf n w) fun e => .ret _
          · exact .err _
    · exact .err _

theorem arguments_maps (m n : Nat) :
    Maps f (List.map (·.map f)) (IIz.parseArguments m n) (IIz.parseArguments m n) := by
  induction n with
  | zero => exact .outOfFuel
  | succ n ih =>
    rw [IIz.parseArguments]
    refine .bind (.nextIf (hf.key _)) fun o => ?_
    cases o with
    | none => exact .ret _
    | some t =>
      refine .bind .nextTok fun o => ?_
      cases o with
      | none => exact .err _
      | some t =>
        refine .bind (expr_maps hf m t) fun e => .bind (.nextIf (hf.key _)) fun o => ?_
        cases o with
        | none => exact .ret _
        | some t => exact .bind ih fun _ => .ret _

theorem IIz.maps (n : Nat) (t : Token) : Maps f (·.map f) (IIz.parse n t) (IIz.parse n (f t)) := by
  refine .bind .nextTok fun o => ?_
  cases o with
  | none => exact .err _
  | some u =>
    refine .bind (access_maps hf n u) fun v => .bind (arguments_maps hf n n) fun es => .bind .nextTok fun o => ?_
    cases o with
    | none => exact .err _
    | some u =>
      simp only [Option.map_some, hf.keyword]
      split
      · exact .ret _
      · exact .err _

theorem conditional_maps (n : Nat) :
    Maps f (Option.map (·.map f)) (parseConditional n) (parseConditional n) := by
  refine .bind (.nextIf fun t => by simp [hf.keyword]) fun o => ?_
  cases o with
  | none => exact .ret _
  | some t =>
    refine .bind .nextTok fun o => ?_
    cases o with
    | none => exact .err _
    | some u =>
      refine .bind (expr_maps hf n u) fun e => ?_
      simp only [hf.keyword]
      split
      · exact .ret _
      · exact .ret _

theorem iteration_maps (n : Nat) :
    Maps f (Option.map (·.map f)) (parseIterationOperation n) (parseIterationOperation n) := by
  refine .bind (.nextIf fun t => by simp [hf.keyword]) fun o => ?_
  cases o with
  | none => exact .ret _
  | some t =>
    simp only [Option.map_some, hf.keyword]
    have ho : (if t.isKeyword .UPPIN then LoopOperation.uppin (f t) else .nerfin (f t)) =
        (if t.isKeyword .UPPIN then LoopOperation.uppin t else .nerfin t).map f := by split <;> rfl
    rw [ho]
    generalize (if t.isKeyword .UPPIN then LoopOperation.uppin t else .nerfin t) = op
    have hop : (op.map f).token = f op.token := by cases op <;> rfl
    rw [hop]
    refine .bind .nextTok fun o => ?_
    cases o with
    | none => exact .err _
    | some u =>
      simp only [Option.map_some, hf.keyword]
      split
      · refine .bind .nextTok fun o => ?_
        cases o with
        | none => exact .err _
        | some w => exact .bind (access_maps hf n w) fun e => .ret _
      · exact .err _

theorem parameters_maps (n : Nat) :
    Maps f (List.map (·.map f)) (parseParameters n) (parseParameters n) := by
  induction n with
  | zero => exact .outOfFuel
  | succ n ih =>
    rw [parseParameters]
    refine .bind (.nextIf (hf.key _)) fun o => ?_
    cases o with
    | none => exact .ret _
    | some t =>
      refine .bind .nextTok fun o => ?_
      cases o with
      | none => exact .err _
      | some t =>
        refine .bind (identifier_maps hf t) fun e => .bind .peekTok fun o => ?_
        cases o with
        | none => exact .ret _
        | some t =>
          simp only [Option.map_some, hf.keyword]
          split
          · exact .bind .nextTok fun _ => .bind ih fun _ => .ret _
          · exact .ret _

/-! ## Blocks -/

variable {block : (Token → Bool) → Prog Block}
  (hblock : ∀ {stop : Token → Bool}, (∀ t, stop (f t) = stop t) → Maps f (mapBlock f) (block stop) (block stop))
include hblock

theorem imInYr_maps (n : Nat) (t : Token) :
    Maps f (·.map f) (parseImInYr block n t) (parseImInYr block n (f t)) := by
  refine .bind .nextTok fun o => ?_
  cases o with
  | none => exact .err _
  | some u =>
    simp only [Option.map_some, hf.identifier]
    split
    · refine .bind (iteration_maps hf n) fun op => .bind (conditional_maps hf n) fun c =>
        .bind .shouldBeEmpty fun _ => .bind (hblock fun t => hf.keyword _ t) fun b => .bind .nextTok fun o => ?_
      cases o with
      | none => exact .err _
      | some u =>
        refine .bind .nextTok fun o => ?_
        cases o with
        | none => exact .err _
        | some w =>
          simp only [Option.map_some, hf.identifier]
          split
          · exact .pure' (by simp [Node.map])
          · exact .err _
    · exact .err _

theorem howIzI_maps (n : Nat) (t : Token) :
    Maps f (·.map f) (parseHowIzI block n t) (parseHowIzI block n (f t)) := by
  refine .bind .nextTok fun o => ?_
  cases o with
  | none => exact .err _
  | some u =>
    refine .bind (identifier_maps hf u) fun i => .bind (parameters_maps hf n) fun c =>
        .bind .shouldBeEmpty fun _ => .bind (hblock fun t => hf.keyword _ t) fun b => .bind .nextTok fun o => ?_
    cases o with
    | none => exact .err _
    | some u =>
      simp only [Option.map_some, hf.keyword]
      split
      · exact .bind .shouldBeEmpty fun _ => .pure' (by simp [Node.map])
      · exact .err _

theorem omgs_maps (m n : Nat) :
    Maps f (mapOmgs f) (parseOmgs block m n) (parseOmgs block m n) := by
  induction n with
  | zero => exact .outOfFuel
  | succ n ih =>
    rw [parseOmgs]
    refine .bind (.nextIf (hf.key _)) fun o => ?_
    cases o with
    | none => exact .pure' (by simp [mapOmgs])
    | some t =>
      refine .bind .nextTok fun o => ?_
      cases o with
      | none => exact .err _
      | some t =>
        exact .bind (expr_maps hf m t) fun e => .bind .shouldBeEmpty fun _ =>
          .bind (hblock fun t => by simp [stopSwitch, hf.keyword]) fun b => .bind ih fun _ =>
          .pure' (by simp [mapOmgs])

theorem omgWtf_maps : Maps f (mapOmgWtf f) (parseOmgWtf block) (parseOmgWtf block) := by
  refine .bind (.nextIf (hf.key _)) fun o => ?_
  cases o with
  | none => exact .pure' (by simp [mapOmgWtf])
  | some t =>
    exact .bind .shouldBeEmpty fun _ => .bind (hblock fun t => by simp [stopSwitch, hf.keyword]) fun b =>
      .pure' (by simp [mapOmgWtf])

theorem wtf_maps (n : Nat) (t : Token) :
    Maps f (·.map f) (parseWtf block n t) (parseWtf block n (f t)) := by
  refine .bind .nextTok fun o => ?_
  cases o with
  | none => exact .err _
  | some u =>
    simp only [Option.map_some, hf.question]
    split
    · refine .bind .shouldBeEmpty fun _ => .bind (omgs_maps hf hblock n n) fun c =>
        .bind (omgWtf_maps hf hblock) fun b => .bind .nextTok fun o => ?_
      cases o with
      | none => exact .err _
      | some u =>
        simp only [Option.map_some, hf.keyword]
        split
        · exact .bind .shouldBeEmpty fun _ => .pure' (by simp [Node.map])
        · exact .err _
    · exact .err _

theorem yaRly_maps : Maps f (mapYaRly f) (parseYaRly block) (parseYaRly block) := by
  refine .bind (.nextIf (hf.key _)) fun o => ?_
  cases o with
  | none => exact .pure' (by simp [mapYaRly])
  | some t =>
    exact .bind .shouldBeEmpty fun _ => .bind (hblock fun t => by simp [stopIf, hf.keyword]) fun b =>
      .pure' (by simp [mapYaRly])

theorem mebbes_maps (m n : Nat) :
    Maps f (mapMebbes f) (parseMebbes block m n) (parseMebbes block m n) := by
  induction n with
  | zero => exact .outOfFuel
  | succ n ih =>
    rw [parseMebbes]
    refine .bind (.nextIfEq fun t => hf.typeEq t (.inl ⟨_, rfl⟩)) fun o => ?_
    cases o with
    | none => exact .pure' (by simp [mapMebbes])
    | some t =>
      refine .bind .nextTok fun o => ?_
      cases o with
      | none => exact .err _
      | some t =>
        exact .bind (expr_maps hf m t) fun e => .bind .shouldBeEmpty fun _ =>
          .bind (hblock fun t => by simp [stopIf, hf.keyword]) fun b => .bind ih fun _ =>
          .pure' (by simp [mapMebbes])

theorem noWai_maps : Maps f (mapNoWai f) (parseNoWai block) (parseNoWai block) := by
  refine .bind (.nextIf (hf.key _)) fun o => ?_
  cases o with
  | none => exact .pure' (by simp [mapNoWai])
  | some t =>
    exact .bind .shouldBeEmpty fun _ => .bind (hblock fun t => by simp [stopIf, hf.keyword]) fun b =>
      .pure' (by simp [mapNoWai])

theorem oRly_maps (n : Nat) (t : Token) :
    Maps f (·.map f) (parseORly block n t) (parseORly block n (f t)) := by
  refine .bind .nextTok fun o => ?_
  cases o with
  | none => exact .err _
  | some u =>
    simp only [Option.map_some, hf.question]
    split
    · refine .bind .shouldBeEmpty fun _ => .bind (yaRly_maps hf hblock) fun y =>
        .bind (mebbes_maps hf hblock n n) fun c => .bind (noWai_maps hf hblock) fun b => .bind .nextTok fun o => ?_
      cases o with
      | none => exact .err _
      | some u =>
        simp only [Option.map_some, hf.keyword]
        split
        · exact .pure' (by simp [Node.map])
        · exact .err _
    · exact .err _

omit hblock in
theorem accessStatement_maps (n : Nat) (t : Token) :
    Maps f (·.map f) (parseAccessStatement n t) (parseAccessStatement n (f t)) := by
  refine .bind (access_maps hf n t) fun v => .bind .peekTok fun o => ?_
  cases o with
  | none => exact .pure' (by simp [Node.map, Expr.map, ExprValue.map])
  | some u =>
    have ha := VariableAssignment.maps hf n v
    have hb := BukkitSetSlot.maps hf n v
    have h := hf.same u
    simp only [Option.map_some]
    generalize (f u).tokenType = x at h
    generalize u.tokenType = y at h
    cases h with
    | same =>
      cases x with
      | keyword k =>
        cases k <;> first
          | exact .panic _
          | exact .bind ha fun _ => .pure' (by simp [Node.map])
          | exact .bind hb fun _ => .pure' (by simp [Node.map])
      | _ => exact .panic _
    | _ => exact .panic _

theorem statement_maps (n : Nat) (t : Token) :
    Maps f (·.map f) (parseStatement block n t) (parseStatement block n (f t)) := by
  rw [parseStatement, parseStatement, hf.isValid]
  split
  · exact accessStatement_maps hf n t
  · have he : Maps f (·.map f) (do let e ← parseExpr n t; pure (Node.expression e))
        (do let e ← parseExpr n (f t); pure (Node.expression e)) :=
      .bind (expr_maps hf n t) fun _ => .pure' (by simp [Node.map])
    have h1 := IHasA.maps hf n t
    have h2 := Visible.maps hf n t
    have h3 := Gimmeh.maps hf n t
    have h4 := FoundYr.maps hf n t
    have h5 := Hai.maps (f := f) t
    have h6 := IIz.maps hf n t
    have h7 := imInYr_maps hf hblock n t
    have h8 := howIzI_maps hf hblock n t
    have h9 := wtf_maps hf hblock n t
    have h10 := oRly_maps hf hblock n t
    have h := hf.same t
    generalize (f t).tokenType = x at h
    generalize t.tokenType = y at h
    cases h with
    | same =>
      cases x with
      | keyword k =>
        cases k
        case I_HAS_A => exact .bind h1 fun _ => .pure' (by simp [Node.map])
        case VISIBLE => exact .bind h2 fun _ => .pure' (by simp [Node.map])
        case GIMMEH => exact .bind h3 fun _ => .pure' (by simp [Node.map])
        case FOUND_YR => exact .bind h4 fun _ => .pure' (by simp [Node.map])
        case HAI => exact .bind h5 fun _ => .pure' (by simp [Node.map])
        case I_IZ => exact .bind h6 fun _ => .pure' (by simp [Node.map])
        case KTHXBYE => exact .pure' (by simp [Node.map])
        case GTFO => exact .pure' (by simp [Node.map])
        case IM_IN_YR => exact h7
        case HOW_IZ_I => exact h8
        case WTF => exact h9
        case O_RLY => exact h10
        all_goals exact he
      | _ => exact he
    | _ => exact he

omit hf hblock in
theorem mapBlock_append (a b : List Node) : mapBlock f (a ++ b) = mapBlock f a ++ mapBlock f b := by
  induction a with
  | nil => simp [mapBlock]
  | cons x a ih => simp [mapBlock, ih]

/-- The rest of a round of `parseBlock`, after its nodes and errors are known. -/
private def blockRest (n : Nat) (stop : Token → Bool) (nodes errors : List Node) : Prog Block := do
  match ← peek with
  | none => pure (nodes ++ errors)
  | some token =>
    if stop token then pure (nodes ++ errors)
    else
      let more ← parseBlock n stop
      pure (nodes ++ errors ++ more)

omit hblock in
theorem block_maps (n : Nat) {stop : Token → Bool} (hs : ∀ t, stop (f t) = stop t) :
    Maps f (mapBlock f) (parseBlock n stop) (parseBlock n stop) := by
  induction n generalizing stop with
  | zero => exact .outOfFuel
  | succ n ih =>
    have htail : ∀ (p q : List Node → Prog Block), (∀ a, Maps f (mapBlock f) (p a) (q (mapBlock f a))) →
        Maps f (mapBlock f) (do
          match ← nextStatementShouldBeEmpty.toResult with
          | .ok _ => p []
          | .error e => p [Node.astError e]) (do
          match ← nextStatementShouldBeEmpty.toResult with
          | .ok _ => q []
          | .error e => q [Node.astError e]) := by
      intro p q h
      refine .bind Maps.shouldBeEmpty.toResult fun r => ?_
      cases r with
      | ok _ =>
        have h0 := h []
        simp only [mapBlock] at h0
        exact h0
      | error e =>
        have h0 := h [.astError e]
        simp only [mapBlock, Node.map] at h0
        exact h0
    have hmore : ∀ nodes nodes' errors : List Node, nodes' = mapBlock f nodes →
        Maps f (mapBlock f) (blockRest n stop nodes errors) (blockRest n stop nodes' (mapBlock f errors)) := by
      intro nodes nodes' errors hn
      subst hn
      refine .bind .peekTok fun o => ?_
      cases o with
      | none => exact .pure' (by simp [mapBlock_append])
      | some t =>
        simp only [Option.map_some, hs]
        split
        · exact .pure' (by simp [mapBlock_append])
        · exact .bind (ih hs) fun _ => .pure' (by simp [mapBlock_append])
    rw [parseBlock]
    refine .bind .nextTok fun o => ?_
    cases o with
    | none => exact htail (blockRest n stop []) (blockRest n stop []) fun a => hmore [] [] a (by simp [mapBlock])
    | some t =>
      refine .bind (statement_maps hf ih n t).toResult fun r => ?_
      cases r with
      | ok node =>
        exact htail (blockRest n stop [node]) (blockRest n stop [node.map f]) fun a =>
          hmore [node] [node.map f] a (by simp [mapBlock])
      | error e =>
        exact htail (blockRest n stop [.astError e]) (blockRest n stop [.astError (e.map f)]) fun a =>
          hmore [.astError e] [.astError (e.map f)] a (by simp [mapBlock, Node.map])

end

end Lol
