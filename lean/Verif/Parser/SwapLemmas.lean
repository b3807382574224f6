import Verif.Parser.MapLemmas
import Verif.Parser.SwapSpec

/-! # The parsers commute with the replacement of words by words that play the same part -/

namespace Lol

/-! ## Roles -/

/-- A word that plays the same part as another word. -/
def Keyword.swappable : Keyword → Bool
  | .SUM_OF | .DIFF_OF | .PRODUKT_OF | .QUOSHUNT_OF | .MOD_OF | .BIGGR_OF | .SMALLR_OF | .BOTH_OF | .EITHER_OF | .WON_OF
  | .BOTH_SAEM | .DIFFRINT | .ALL_OF | .ANY_OF | .SMOOSH | .NUMBR | .NUMBAR | .YARN | .TROOF | .BUKKIT | .UPPIN | .NERFIN
  | .IS_NOW | .A | .BTW | .OBTW | .TLDR | .WIN | .FAIL => true
  | _ => false

theorem Keyword.role_swappable (k : Keyword) : k.role.swappable = k.swappable := by cases k <;> rfl

theorem Keyword.role_fixed {k : Keyword} (h : k.swappable = false) : k.role = k := by
  cases k <;> first | rfl | cases h

/-- `f` keeps the part that every token plays. -/
abbrev KeepsRole (f : Token → Token) : Prop := ∀ t, (f t).tokenType.role = t.tokenType.role

theorem TokenType.role_eq {x y : TokenType} (h : x.role = y.role) :
    SameKind x y ∨ ∃ k k', x = .keyword k ∧ y = .keyword k' ∧ k.swappable = true ∧ k'.swappable = true ∧
      k.role = k'.role := by
  by_cases hx : ∃ k, x = .keyword k
  · obtain ⟨k, rfl⟩ := hx
    by_cases hy : ∃ k, y = .keyword k
    · obtain ⟨k', rfl⟩ := hy
      simp only [TokenType.role, TokenType.keyword.injEq] at h
      cases hk : k.swappable with
      | true =>
        refine .inr ⟨k, k', rfl, rfl, hk, ?_, h⟩
        rw [← k'.role_swappable, ← h, k.role_swappable, hk]
      | false =>
        have hk' : k'.swappable = false := by rw [← k'.role_swappable, ← h, k.role_swappable, hk]
        rw [Keyword.role_fixed hk, Keyword.role_fixed hk'] at h
        rw [h]
        exact .inl (.same _)
    · cases y <;> simp [TokenType.role, TokenType.kind] at h hy
      split at h <;> cases h
  · refine .inl (.of_kind ?_)
    cases x <;> cases y <;> first
      | exact h
      | (simp [TokenType.role, TokenType.kind] at h hx; done)
      | (simp only [TokenType.role, TokenType.kind] at h; split at h <;> cases h; done)
      | (exfalso; simp at hx; done)

namespace KeepsRole

variable {f : Token → Token} (hf : KeepsRole f)
include hf

theorem same (t : Token) :
    SameKind (f t).tokenType t.tokenType ∨ ∃ k k', (f t).tokenType = .keyword k ∧ t.tokenType = .keyword k' ∧
      k.swappable = true ∧ k'.swappable = true ∧ k.role = k'.role :=
  TokenType.role_eq (hf t)

theorem keyword (k : Keyword) (t : Token) (hk : k.swappable = false) : (f t).isKeyword k = t.isKeyword k := by
  unfold Token.isKeyword
  rcases hf.same t with h | ⟨a, b, ha, hb, h, h', -⟩
  · generalize (f t).tokenType = x at h
    generalize t.tokenType = y at h
    cases h <;> rfl
  · have h1 : a ≠ k := by rintro rfl; rw [hk] at h; cases h
    have h2 : b ≠ k := by rintro rfl; rw [hk] at h'; cases h'
    simp [ha, hb, h1, h2]

theorem key (k : Keyword) (hk : k.swappable = false := by rfl) : ∀ t, (f t).isKeyword k = t.isKeyword k :=
  fun t => hf.keyword k t hk

theorem typeEq (t : Token) {ty : TokenType}
    (h : (∃ k, ty = .keyword k ∧ k.swappable = false) ∨ ty = .bukkitSlotAccess ∨ ty = .exclamationMark ∨ ty = .comma ∨
      ty = .ellipsis) : (f t).tokenType = ty ↔ t.tokenType = ty := by
  rcases hf.same t with hs | ⟨a, b, ha, hb, h1, h2, -⟩
  · generalize (f t).tokenType = x at hs
    generalize t.tokenType = y at hs
    rcases h with ⟨k, rfl, -⟩ | rfl | rfl | rfl | rfl <;> cases hs <;> simp
  · rw [ha, hb]
    rcases h with ⟨k, rfl, hk⟩ | rfl | rfl | rfl | rfl
    · have h1 : a ≠ k := by rintro rfl; rw [hk] at h1; cases h1
      have h2 : b ≠ k := by rintro rfl; rw [hk] at h2; cases h2
      simp [h1, h2]
    all_goals simp

theorem question (t : Token) : (f t).isQuestion = t.isQuestion := by
  unfold Token.isQuestion
  rcases hf.same t with h | ⟨a, b, ha, hb, -⟩
  · generalize (f t).tokenType = x at h
    generalize t.tokenType = y at h
    cases h <;> simp_all
  · simp [ha, hb]

theorem identifier (t : Token) : (f t).isIdentifier = t.isIdentifier := by
  unfold Token.isIdentifier
  rcases hf.same t with h | ⟨a, b, ha, hb, -⟩
  · generalize (f t).tokenType = x at h
    generalize t.tokenType = y at h
    cases h <;> rfl
  · rw [ha, hb]

omit hf in
theorem isValid_word {k : Keyword} (h : k.swappable = true) :
    (match TokenType.keyword k with
      | .identifier _ => true
      | .keyword .SRS => true
      | _ => false) = false := by
  cases k <;> first | rfl | (cases h; done)

theorem isValid (t : Token) : VariableAccess.isValid (f t) = VariableAccess.isValid t := by
  unfold VariableAccess.isValid
  rcases hf.same t with h | ⟨a, b, ha, hb, h, h', -⟩
  · generalize (f t).tokenType = x at h
    generalize t.tokenType = y at h
    cases h <;> rfl
  · rw [ha, hb]
    exact (isValid_word h).trans (isValid_word h').symm

/-- A test of words that only depends on the part they play. -/
theorem test (p : TokenType → Bool) (hp : ∀ x y, SameKind x y → p x = p y)
    (hr : ∀ k, p (.keyword k) = p (.keyword k.role)) (t : Token) : p (f t).tokenType = p t.tokenType := by
  rcases hf.same t with h | ⟨a, b, ha, hb, -, -, h⟩
  · exact hp _ _ h
  · rw [ha, hb, hr, h, ← hr]

theorem binary_isSome (t : Token) : (BinaryOpt.named (f t)).isSome = (BinaryOpt.named t).isSome := by
  have e : ∀ t : Token, (BinaryOpt.named t).isSome = (BinaryOpt.named ⟨t.tokenType, ⟨⟨0, 0, 0, 0⟩, ⟨0, 0, 0, 0⟩⟩⟩).isSome := by
    rintro ⟨ty, r⟩
    cases ty <;> first | rfl | skip
    next k => cases k <;> rfl
  rw [e, e t]
  exact hf.test (fun ty => (BinaryOpt.named ⟨ty, ⟨⟨0, 0, 0, 0⟩, ⟨0, 0, 0, 0⟩⟩⟩).isSome)
    (by intro x y h; cases h <;> rfl) (by intro k; cases k <;> rfl) t

theorem binary {t : Token} {o : BinaryOpt} (h : BinaryOpt.named t = some o) : ∃ o', BinaryOpt.named (f t) = some o' := by
  have := hf.binary_isSome t
  rw [h] at this
  exact Option.isSome_iff_exists.mp this

theorem binary_none {t : Token} (h : BinaryOpt.named t = none) : BinaryOpt.named (f t) = none := by
  have := hf.binary_isSome t
  rw [h] at this
  simpa using this

theorem nary_isSome (t : Token) : (NaryOpt.named (f t)).isSome = (NaryOpt.named t).isSome := by
  have e : ∀ t : Token, (NaryOpt.named t).isSome = (NaryOpt.named ⟨t.tokenType, ⟨⟨0, 0, 0, 0⟩, ⟨0, 0, 0, 0⟩⟩⟩).isSome := by
    rintro ⟨ty, r⟩
    cases ty <;> first | rfl | skip
    next k => cases k <;> rfl
  rw [e, e t]
  exact hf.test (fun ty => (NaryOpt.named ⟨ty, ⟨⟨0, 0, 0, 0⟩, ⟨0, 0, 0, 0⟩⟩⟩).isSome)
    (by intro x y h; cases h <;> rfl) (by intro k; cases k <;> rfl) t

theorem nary {t : Token} {o : NaryOpt} (h : NaryOpt.named t = some o) : ∃ o', NaryOpt.named (f t) = some o' := by
  have := hf.nary_isSome t
  rw [h] at this
  exact Option.isSome_iff_exists.mp this

theorem nary_none {t : Token} (h : NaryOpt.named t = none) : NaryOpt.named (f t) = none := by
  have := hf.nary_isSome t
  rw [h] at this
  simpa using this

theorem type_isSome (t : Token) : (ASTType.named (f t)).isSome = (ASTType.named t).isSome := by
  have e : ∀ t : Token, (ASTType.named t).isSome = (ASTType.named ⟨t.tokenType, ⟨⟨0, 0, 0, 0⟩, ⟨0, 0, 0, 0⟩⟩⟩).isSome := by
    rintro ⟨ty, r⟩
    cases ty <;> first | rfl | skip
    next k => cases k <;> rfl
  rw [e, e t]
  exact hf.test (fun ty => (ASTType.named ⟨ty, ⟨⟨0, 0, 0, 0⟩, ⟨0, 0, 0, 0⟩⟩⟩).isSome)
    (by intro x y h; cases h <;> rfl) (by intro k; cases k <;> rfl) t

theorem type {t : Token} {o : ASTType} (h : ASTType.named t = some o) : ∃ o', ASTType.named (f t) = some o' := by
  have := hf.type_isSome t
  rw [h] at this
  exact Option.isSome_iff_exists.mp this

theorem type_none {t : Token} (h : ASTType.named t = none) : ASTType.named (f t) = none := by
  have := hf.type_isSome t
  rw [h] at this
  simpa using this

theorem stepNamed_isSome (t : Token) : (LoopOperation.named (f t)).isSome = (LoopOperation.named t).isSome := by
  have e : ∀ t : Token, (LoopOperation.named t).isSome = (LoopOperation.named ⟨t.tokenType, ⟨⟨0, 0, 0, 0⟩, ⟨0, 0, 0, 0⟩⟩⟩).isSome := by
    rintro ⟨ty, r⟩
    cases ty <;> first | rfl | skip
    next k => cases k <;> rfl
  rw [e, e t]
  exact hf.test (fun ty => (LoopOperation.named ⟨ty, ⟨⟨0, 0, 0, 0⟩, ⟨0, 0, 0, 0⟩⟩⟩).isSome)
    (by intro x y h; cases h <;> rfl) (by intro k; cases k <;> rfl) t

theorem stepNamed {t : Token} {o : LoopOperation} (h : LoopOperation.named t = some o) : ∃ o', LoopOperation.named (f t) = some o' := by
  have := hf.stepNamed_isSome t
  rw [h] at this
  exact Option.isSome_iff_exists.mp this

theorem stepNamed_none {t : Token} (h : LoopOperation.named t = none) : LoopOperation.named (f t) = none := by
  have := hf.stepNamed_isSome t
  rw [h] at this
  simpa using this

theorem step (t : Token) : ((f t).isKeyword .UPPIN || (f t).isKeyword .NERFIN) = (t.isKeyword .UPPIN || t.isKeyword .NERFIN) :=
  hf.test (fun ty => decide (ty = .keyword .UPPIN) || decide (ty = .keyword .NERFIN))
    (by intro x y h; cases h <;> simp) (by intro k; cases k <;> rfl) t

end KeepsRole

namespace Swap

theorem BinaryOpt.token_of_named {t : Token} {o : BinaryOpt} (h : BinaryOpt.named t = some o) : o.token = t := by
  unfold BinaryOpt.named at h
  split at h <;> cases h <;> rfl

theorem NaryOpt.token_of_named {t : Token} {o : NaryOpt} (h : NaryOpt.named t = some o) : o.token = t := by
  unfold NaryOpt.named at h
  split at h <;> cases h <;> rfl

theorem ASTType.token_of_named {t : Token} {o : ASTType} (h : ASTType.named t = some o) : o.token = t := by
  unfold ASTType.named at h
  split at h <;> cases h <;> rfl

theorem LoopOperation.token_of_named {t : Token} {o : LoopOperation} (h : LoopOperation.named t = some o) : o.token = t := by
  unfold LoopOperation.named at h
  split at h <;> cases h <;> rfl

theorem parseExpr_binary {n : Nat} {t : Token} {o : BinaryOpt} (h : BinaryOpt.named t = some o) :
    parseExpr (n + 1) t = parseBinary (parseExpr n) o := by
  unfold BinaryOpt.named at h
  rw [parseExpr]
  split at h <;> cases h <;> simp only [*]

theorem parseExpr_nary {n : Nat} {t : Token} {o : NaryOpt} (h : NaryOpt.named t = some o) :
    parseExpr (n + 1) t = parseNary (parseExpr n) n o := by
  unfold NaryOpt.named at h
  rw [parseExpr]
  split at h <;> cases h <;> simp only [*]

theorem parseExpr_word {n : Nat} {t : Token} {k : Keyword} (hk : t.tokenType = .keyword k) (h : k.swappable = true)
    (hb : BinaryOpt.named t = none) (hn : NaryOpt.named t = none) :
    parseExpr (n + 1) t = fail (.unexpectedToken t) := by
  unfold BinaryOpt.named at hb
  unfold NaryOpt.named at hn
  rw [parseExpr]
  rw [hk] at hb hn ⊢
  cases k <;> first | rfl | (cases h; done) | (cases hb; done) | (cases hn; done)

theorem identifier_word {t : Token} {k : Keyword} (hk : t.tokenType = .keyword k) (h : k.swappable = true) :
    Identifier.parse t = fail (.unexpectedToken t) := by
  rw [Identifier.parse, hk]
  cases k <;> first | rfl | (cases h; done)

theorem statement_word {block : (Token → Bool) → Prog Block} {n : Nat} {t : Token} {k : Keyword}
    (hv : VariableAccess.isValid t = false) (hk : t.tokenType = .keyword k) (h : k.swappable = true) :
    parseStatement block n t = (do let e ← parseExpr n t; pure (Node.expression e)) := by
  rw [parseStatement, hv, hk]
  cases k <;> first | rfl | (cases h; done)

theorem step_if {t : Token} {o : LoopOperation} (h : LoopOperation.named t = some o) :
    (if t.isKeyword .UPPIN then LoopOperation.uppin t else .nerfin t) = o := by
  unfold LoopOperation.named at h
  split at h <;> cases h <;> simp [Token.isKeyword, *]

open Prog

section

variable {f : Token → Token} (hf : KeepsRole f)
include hf

theorem identifier_maps (t : Token) :
    Maps f (·.map f) (Identifier.parse t) (Identifier.parse (f t)) := by
  rcases hf.same t with h | ⟨k, k', hk, hk', h, h', -⟩
  case inr => rw [identifier_word hk h, identifier_word hk' h']; exact .err _
  unfold Identifier.parse
  generalize hx : (f t).tokenType = x at h
  generalize hy : t.tokenType = y at h
  cases h with
  | ident a b => exact .ret _
  | same =>
    cases x with
    | keyword k =>
      cases k
      case SRS =>
        refine .bind .nextTok fun o => ?_
        cases o with
        | none => exact .err _
        | some u =>
          simp only [Option.map_some]
          rcases hf.same u with h' | ⟨k, k', hk, hk', h, h', -⟩
          case inr => rw [hk, hk']; exact .err _
          generalize hx : (f u).tokenType = x at h'
          generalize hy : u.tokenType = y at h'
          cases h' with
          | ident a b => exact .ret _
          | same => cases x <;> first | exact .ret _ | exact .err _
          | _ => exact .err _
      all_goals exact .err _
    | identifier => exact .ret _
    | _ => exact .err _
  | _ => exact .err _

theorem slots_maps (n : Nat) :
    Maps f (List.map (·.map f)) (VariableAccess.parseSlots n) (VariableAccess.parseSlots n) := by
  induction n with
  | zero => exact .outOfFuel
  | succ n ih =>
    rw [VariableAccess.parseSlots]
    refine .bind (.nextIf fun t => by simp [hf.typeEq t (ty := .bukkitSlotAccess)]) fun o => ?_
    cases o with
    | none => exact .ret _
    | some t =>
      refine .bind .nextTok fun o => ?_
      cases o with
      | none => exact .err _
      | some t => exact .bind (identifier_maps hf t) fun i => .bind ih fun _ => .ret _

theorem access_maps (n : Nat) (t : Token) :
    Maps f (·.map f) (VariableAccess.parse n t) (VariableAccess.parse n (f t)) :=
  .bind (identifier_maps hf t) fun _ => .bind (slots_maps hf n) fun _ => .ret _

theorem binary_maps {p : Token → Prog Expr} (h : ∀ t, Maps f (·.swap f) (p t) (p (f t))) {o o' : BinaryOpt}
    (ho : o'.token = f o.token) (hs : o' = o.swap f) : Maps f (·.swap f) (parseBinary p o) (parseBinary p o') := by
  unfold parseBinary
  rw [ho]
  refine .bind .nextTok fun u => ?_
  cases u with
  | none => exact .err _
  | some t =>
    refine .bind (h t) fun e => .bind (.nextIf (hf.key _)) fun an => .bind .nextTok fun u => ?_
    cases u with
    | none => exact .err _
    | some t => exact .bind (h t) fun r => .pure' (by simp [Expr.swap, hs])

omit hf in
theorem unary_maps {p : Token → Prog Expr} (h : ∀ t, Maps f (·.swap f) (p t) (p (f t))) (o : UnaryOpt) :
    Maps f (·.swap f) (parseUnary p o) (parseUnary p (o.map f)) := by
  have ho : (o.map f).token = f o.token := by cases o; rfl
  unfold parseUnary
  rw [ho]
  refine .bind .nextTok fun u => ?_
  cases u with
  | none => exact .err _
  | some t => exact .bind (h t) fun r => .pure' (by simp [Expr.swap])

theorem operands_maps {p : Token → Prog Expr} (h : ∀ t, Maps f (·.swap f) (p t) (p (f t))) (n : Nat) :
    Maps f (swapOperands f) (parseOperands p n) (parseOperands p n) := by
  induction n with
  | zero => exact .outOfFuel
  | succ n ih =>
    rw [parseOperands]
    refine .bind (.nextIfNe fun t => hf.typeEq t (.inl ⟨_, rfl, rfl⟩)) fun o => ?_
    cases o with
    | none => exact .pure' (by simp [swapOperands])
    | some t =>
      exact .bind (h t) fun _ => .bind (.nextIfEq fun t => hf.typeEq t (.inl ⟨_, rfl, rfl⟩)) fun _ =>
        .bind ih fun _ => .pure' (by simp [swapOperands])

theorem nary_maps {p : Token → Prog Expr} (h : ∀ t, Maps f (·.swap f) (p t) (p (f t))) (n : Nat) {o o' : NaryOpt}
    (hs : o' = o.swap f) : Maps f (·.swap f) (parseNary p n o) (parseNary p n o') :=
  .bind (operands_maps hf h n) fun _ => .bind .nextTok fun _ => .pure' (by simp [Expr.swap, hs])

theorem expr_maps (n : Nat) (t : Token) : Maps f (·.swap f) (parseExpr n t) (parseExpr n (f t)) := by
  induction n generalizing t with
  | zero => exact .outOfFuel
  | succ n ih =>
    have hu := unary_maps ih
    have ha : Maps f (·.swap f)
        (do let v ← VariableAccess.parse n t; pure (Expr.value (.variableAccess v)))
        (do let v ← VariableAccess.parse n (f t); pure (Expr.value (.variableAccess v))) :=
      .bind (access_maps hf n t) fun _ => .pure' (by simp [Expr.swap, ExprValue.map])
    cases hb : BinaryOpt.named t with
    | some o =>
      obtain ⟨o', hb'⟩ := hf.binary hb
      rw [parseExpr_binary hb, parseExpr_binary hb']
      have h1 := BinaryOpt.token_of_named hb
      have h2 := BinaryOpt.token_of_named hb'
      refine binary_maps hf ih (by rw [h1, h2]) ?_
      rw [BinaryOpt.swap, h1, hb']; rfl
    | none =>
    cases hn : NaryOpt.named t with
    | some o =>
      obtain ⟨o', hn'⟩ := hf.nary hn
      rw [parseExpr_nary hn, parseExpr_nary hn']
      have h1 := NaryOpt.token_of_named hn
      refine nary_maps hf ih n ?_
      rw [NaryOpt.swap, h1, hn']; rfl
    | none =>
    rcases hf.same t with h | ⟨k, k', hk, hk', h, h', hr⟩
    case inr =>
      rw [parseExpr_word hk h (hf.binary_none hb) (hf.nary_none hn), parseExpr_word hk' h' hb hn]
      exact .err _
    rw [parseExpr, parseExpr]
    unfold BinaryOpt.named at hb
    unfold NaryOpt.named at hn
    generalize hx : (f t).tokenType = x at h
    generalize hy : t.tokenType = y at h hb hn
    cases h with
    | ident a b => exact ha
    | value a b => exact .pure' (by simp [Expr.swap, ExprValue.map])
    | same =>
      cases x with
      | keyword k =>
        cases k <;> first
          | exact .err _
          | exact hu _
          | exact ha
          | exact .pure' (by simp [Expr.swap, ExprValue.map])
          | exact .panic _
          | (cases hb; done)
          | (cases hn; done)
      | identifier => exact ha
      | value => exact .pure' (by simp [Expr.swap, ExprValue.map])
      | _ => exact .err _
    | _ => exact .err _

/-! ## Statements -/

theorem IHasA.maps (n : Nat) (t : Token) : Maps f (·.swap f) (IHasA.parse n t) (IHasA.parse n (f t)) := by
  refine .bind .nextTok fun o => ?_
  cases o with
  | none => exact .err _
  | some u =>
    simp only [Option.map_some, hf.isValid]
    split
    · refine .bind (identifier_maps hf u) fun i => .bind .nextTok fun o => ?_
      cases o with
      | none => exact .ret _
      | some v =>
        simp (decide := true) only [Option.map_some, hf.keyword]
        split
        · refine .bind .nextTok fun o => ?_
          cases o with
          | none => exact .err _
          | some w =>
            simp only [Option.map_some]
            show Maps f _
              (match ASTType.named w with
                | some type => pure _
                | none => _)
              (match ASTType.named (f w) with
                | some type => pure _
                | none => _)
            cases hw : ASTType.named w with
            | some ty =>
              obtain ⟨ty', hw'⟩ := hf.type hw
              rw [hw']
              refine .pure' ?_
              rw [IHasA.swap]
              simp [IHasAInitialValue.swap, ASTType.swap, ASTType.token_of_named hw, hw']
            | none =>
              rw [hf.type_none hw]
              exact .bind (expr_maps hf n w) fun e => .pure' rfl
        · exact .err _
    · exact .err _

theorem visibleExprs_maps (m n : Nat) :
    Maps f (List.map (·.swap f)) (Visible.parseExpressions m n) (Visible.parseExpressions m n) := by
  induction n with
  | zero => exact .outOfFuel
  | succ n ih =>
    rw [Visible.parseExpressions]
    refine .bind (.nextIfNe fun t => hf.typeEq t (by simp)) fun o => ?_
    cases o with
    | none => exact .ret _
    | some t => exact .bind (expr_maps hf m t) fun i => .bind ih fun _ => .ret _

theorem Visible.maps (n : Nat) (t : Token) : Maps f (·.swap f) (Visible.parse n t) (Visible.parse n (f t)) :=
  .bind (visibleExprs_maps hf n n) fun _ => .bind (.nextIfEq fun t => hf.typeEq t (by simp)) fun _ => .ret _

theorem Gimmeh.maps (n : Nat) (t : Token) : Maps f (·.map f) (Gimmeh.parse n t) (Gimmeh.parse n (f t)) := by
  refine .bind .nextTok fun o => ?_
  cases o with
  | none => exact .err _
  | some u => exact .bind (access_maps hf n u) fun _ => .ret _

theorem FoundYr.maps (n : Nat) (t : Token) : Maps f (·.swap f) (FoundYr.parse n t) (FoundYr.parse n (f t)) := by
  refine .bind .nextTok fun o => ?_
  cases o with
  | none => exact .err _
  | some u => exact .bind (expr_maps hf n u) fun _ => .ret _

omit hf in
theorem Hai.maps (t : Token) : Maps f (·.map f) (Hai.parse t) (Hai.parse (f t)) :=
  .bind .nextStmt fun _ => .ret _

omit hf in
theorem VariableAccess.lastToken_map (v : VariableAccess) : (v.map f).lastToken = f v.lastToken := by
  unfold VariableAccess.lastToken VariableAccess.map
  rw [List.getLast?_map]
  cases v.accesses.getLast? <;> rfl

theorem VariableAssignment.maps (n : Nat) (v : VariableAccess) :
    Maps f (·.swap f) (VariableAssignment.parse n v) (VariableAssignment.parse n (v.map f)) := by
  unfold VariableAssignment.parse
  rw [VariableAccess.lastToken_map]
  refine .bind .nextTok fun o => ?_
  cases o with
  | none => exact .err _
  | some u =>
    simp (decide := true) only [Option.map_some, hf.keyword]
    split
    · refine .bind .nextTok fun o => ?_
      cases o with
      | none => exact .err _
      | some w => exact .bind (expr_maps hf n w) fun e => .ret _
    · exact .err _

theorem BukkitSetSlot.maps (n : Nat) (v : VariableAccess) :
    Maps f (·.swap f) (BukkitSetSlot.parse n v) (BukkitSetSlot.parse n (v.map f)) := by
  unfold BukkitSetSlot.parse
  rw [VariableAccess.lastToken_map]
  refine .bind .nextTok fun o => ?_
  cases o with
  | none => exact .err _
  | some u =>
    simp (decide := true) only [Option.map_some, hf.keyword]
    split
    · refine .bind .nextTok fun o => ?_
      cases o with
      | none => exact .err _
      | some w =>
        refine .bind (identifier_maps hf w) fun i => .bind .nextTok fun o => ?_
        cases o with
        | none => exact .err _
        | some u =>
          simp (decide := true) only [Option.map_some, hf.keyword]
          split
          · refine .bind .nextTok fun o => ?_
            cases o with
            | none => exact .err _
            | some w => exact .bind (expr_maps hf n w) fun e => .ret _
          · exact .err _
    · exact .err _

theorem arguments_maps (m n : Nat) :
    Maps f (List.map (·.swap f)) (IIz.parseArguments m n) (IIz.parseArguments m n) := by
  induction n with
  | zero => exact .outOfFuel
  | succ n ih =>
    rw [IIz.parseArguments]
    refine .bind (.nextIf (hf.key _)) fun o => ?_
    cases o with
    | none => exact .ret _
    | some t =>
      refine .bind .nextTok fun o => ?_
      cases o with
      | none => exact .err _
      | some t =>
        refine .bind (expr_maps hf m t) fun e => .bind (.nextIf (hf.key _)) fun o => ?_
        cases o with
        | none => exact .ret _
        | some t => exact .bind ih fun _ => .ret _

theorem IIz.maps (n : Nat) (t : Token) : Maps f (·.swap f) (IIz.parse n t) (IIz.parse n (f t)) := by
  refine .bind .nextTok fun o => ?_
  cases o with
  | none => exact .err _
  | some u =>
    refine .bind (access_maps hf n u) fun v => .bind (arguments_maps hf n n) fun es => .bind .nextTok fun o => ?_
    cases o with
    | none => exact .err _
    | some u =>
      simp (decide := true) only [Option.map_some, hf.keyword]
      split
      · exact .ret _
      · exact .err _

theorem conditional_maps (n : Nat) :
    Maps f (Option.map (·.swap f)) (parseConditional n) (parseConditional n) := by
  refine .bind (.nextIf fun t => by simp (decide := true) [hf.keyword]) fun o => ?_
  cases o with
  | none => exact .ret _
  | some t =>
    refine .bind .nextTok fun o => ?_
    cases o with
    | none => exact .err _
    | some u =>
      refine .bind (expr_maps hf n u) fun e => ?_
      simp (decide := true) only [hf.keyword]
      split
      · exact .ret _
      · exact .ret _

theorem step_swap (t : Token) :
    (if (f t).isKeyword .UPPIN then LoopOperation.uppin (f t) else .nerfin (f t)) =
        (if t.isKeyword .UPPIN then LoopOperation.uppin t else .nerfin t).swap f ∧
      (if (f t).isKeyword .UPPIN then LoopOperation.uppin (f t) else .nerfin (f t)).token =
        f (if t.isKeyword .UPPIN then LoopOperation.uppin t else .nerfin t).token := by
  cases h : LoopOperation.named t with
  | some o =>
    obtain ⟨o', h'⟩ := hf.stepNamed h
    rw [step_if h, step_if h']
    have h1 := LoopOperation.token_of_named h
    have h2 := LoopOperation.token_of_named h'
    refine ⟨?_, by rw [h1, h2]⟩
    rw [LoopOperation.swap, h1, h']
    rfl
  | none =>
    have h' := hf.stepNamed_none h
    have e : ∀ u : Token, LoopOperation.named u = none → u.isKeyword .UPPIN = false := by
      intro u hu
      unfold LoopOperation.named at hu
      split at hu <;> first | (cases hu; done) | skip
      next h _ => simpa [Token.isKeyword] using h
    simp [e _ h, e _ h', LoopOperation.swap, LoopOperation.token, h', LoopOperation.map]

theorem iteration_maps (n : Nat) :
    Maps f (Option.map (·.swap f)) (parseIterationOperation n) (parseIterationOperation n) := by
  refine .bind (.nextIf fun t => hf.step t) fun o => ?_
  cases o with
  | none => exact .ret _
  | some t =>
    simp only [Option.map_some]
    obtain ⟨hs, h3⟩ := step_swap hf t
    generalize (if t.isKeyword .UPPIN then LoopOperation.uppin t else .nerfin t) = o at hs h3 ⊢
    generalize (if (f t).isKeyword .UPPIN then LoopOperation.uppin (f t) else .nerfin (f t)) = o' at hs h3 ⊢
    rw [h3]
    subst hs
    refine .bind .nextTok fun o => ?_
    cases o with
    | none => exact .err _
    | some u =>
      simp (decide := true) only [Option.map_some, hf.keyword]
      split
      · refine .bind .nextTok fun o => ?_
        cases o with
        | none => exact .err _
        | some w => exact .bind (access_maps hf n w) fun e => .ret _
      · exact .err _

theorem parameters_maps (n : Nat) :
    Maps f (List.map (·.map f)) (parseParameters n) (parseParameters n) := by
  induction n with
  | zero => exact .outOfFuel
  | succ n ih =>
    rw [parseParameters]
    refine .bind (.nextIf (hf.key _)) fun o => ?_
    cases o with
    | none => exact .ret _
    | some t =>
      refine .bind .nextTok fun o => ?_
      cases o with
      | none => exact .err _
      | some t =>
        refine .bind (identifier_maps hf t) fun e => .bind .peekTok fun o => ?_
        cases o with
        | none => exact .ret _
        | some t =>
          simp (decide := true) only [Option.map_some, hf.keyword]
          split
          · exact .bind .nextTok fun _ => .bind ih fun _ => .ret _
          · exact .ret _

/-! ## Blocks -/

variable {block : (Token → Bool) → Prog Block}
  (hblock : ∀ {stop : Token → Bool}, (∀ t, stop (f t) = stop t) → Maps f (swapBlock f) (block stop) (block stop))
include hblock

theorem imInYr_maps (n : Nat) (t : Token) :
    Maps f (·.swap f) (parseImInYr block n t) (parseImInYr block n (f t)) := by
  refine .bind .nextTok fun o => ?_
  cases o with
  | none => exact .err _
  | some u =>
    simp only [Option.map_some, hf.identifier]
    split
    · refine .bind (iteration_maps hf n) fun op => .bind (conditional_maps hf n) fun c =>
        .bind .shouldBeEmpty fun _ => .bind (hblock fun t => hf.keyword _ t rfl) fun b => .bind .nextTok fun o => ?_
      cases o with
      | none => exact .err _
      | some u =>
        refine .bind .nextTok fun o => ?_
        cases o with
        | none => exact .err _
        | some w =>
          simp only [Option.map_some, hf.identifier]
          split
          · exact .pure' (by simp [Node.swap])
          · exact .err _
    · exact .err _

theorem howIzI_maps (n : Nat) (t : Token) :
    Maps f (·.swap f) (parseHowIzI block n t) (parseHowIzI block n (f t)) := by
  refine .bind .nextTok fun o => ?_
  cases o with
  | none => exact .err _
  | some u =>
    refine .bind (identifier_maps hf u) fun i => .bind (parameters_maps hf n) fun c =>
        .bind .shouldBeEmpty fun _ => .bind (hblock fun t => hf.keyword _ t rfl) fun b => .bind .nextTok fun o => ?_
    cases o with
    | none => exact .err _
    | some u =>
      simp (decide := true) only [Option.map_some, hf.keyword]
      split
      · exact .bind .shouldBeEmpty fun _ => .pure' (by simp [Node.swap])
      · exact .err _

theorem omgs_maps (m n : Nat) :
    Maps f (swapOmgs f) (parseOmgs block m n) (parseOmgs block m n) := by
  induction n with
  | zero => exact .outOfFuel
  | succ n ih =>
    rw [parseOmgs]
    refine .bind (.nextIf (hf.key _)) fun o => ?_
    cases o with
    | none => exact .pure' (by simp [swapOmgs])
    | some t =>
      refine .bind .nextTok fun o => ?_
      cases o with
      | none => exact .err _
      | some t =>
        exact .bind (expr_maps hf m t) fun e => .bind .shouldBeEmpty fun _ =>
          .bind (hblock fun t => by simp (decide := true) [stopSwitch, hf.keyword]) fun b => .bind ih fun _ =>
          .pure' (by simp [swapOmgs])

theorem omgWtf_maps : Maps f (swapOmgWtf f) (parseOmgWtf block) (parseOmgWtf block) := by
  refine .bind (.nextIf (hf.key _)) fun o => ?_
  cases o with
  | none => exact .pure' (by simp [swapOmgWtf])
  | some t =>
    exact .bind .shouldBeEmpty fun _ => .bind (hblock fun t => by simp (decide := true) [stopSwitch, hf.keyword]) fun b =>
      .pure' (by simp [swapOmgWtf])

theorem wtf_maps (n : Nat) (t : Token) :
    Maps f (·.swap f) (parseWtf block n t) (parseWtf block n (f t)) := by
  refine .bind .nextTok fun o => ?_
  cases o with
  | none => exact .err _
  | some u =>
    simp only [Option.map_some, hf.question]
    split
    · refine .bind .shouldBeEmpty fun _ => .bind (omgs_maps hf hblock n n) fun c =>
        .bind (omgWtf_maps hf hblock) fun b => .bind .nextTok fun o => ?_
      cases o with
      | none => exact .err _
      | some u =>
        simp (decide := true) only [Option.map_some, hf.keyword]
        split
        · exact .bind .shouldBeEmpty fun _ => .pure' (by simp [Node.swap])
        · exact .err _
    · exact .err _

theorem yaRly_maps : Maps f (swapYaRly f) (parseYaRly block) (parseYaRly block) := by
  refine .bind (.nextIf (hf.key _)) fun o => ?_
  cases o with
  | none => exact .pure' (by simp [swapYaRly])
  | some t =>
    exact .bind .shouldBeEmpty fun _ => .bind (hblock fun t => by simp (decide := true) [stopIf, hf.keyword]) fun b =>
      .pure' (by simp [swapYaRly])

theorem mebbes_maps (m n : Nat) :
    Maps f (swapMebbes f) (parseMebbes block m n) (parseMebbes block m n) := by
  induction n with
  | zero => exact .outOfFuel
  | succ n ih =>
    rw [parseMebbes]
    refine .bind (.nextIfEq fun t => hf.typeEq t (.inl ⟨_, rfl, rfl⟩)) fun o => ?_
    cases o with
    | none => exact .pure' (by simp [swapMebbes])
    | some t =>
      refine .bind .nextTok fun o => ?_
      cases o with
      | none => exact .err _
      | some t =>
        exact .bind (expr_maps hf m t) fun e => .bind .shouldBeEmpty fun _ =>
          .bind (hblock fun t => by simp (decide := true) [stopIf, hf.keyword]) fun b => .bind ih fun _ =>
          .pure' (by simp [swapMebbes])

theorem noWai_maps : Maps f (swapNoWai f) (parseNoWai block) (parseNoWai block) := by
  refine .bind (.nextIf (hf.key _)) fun o => ?_
  cases o with
  | none => exact .pure' (by simp [swapNoWai])
  | some t =>
    exact .bind .shouldBeEmpty fun _ => .bind (hblock fun t => by simp (decide := true) [stopIf, hf.keyword]) fun b =>
      .pure' (by simp [swapNoWai])

theorem oRly_maps (n : Nat) (t : Token) :
    Maps f (·.swap f) (parseORly block n t) (parseORly block n (f t)) := by
  refine .bind .nextTok fun o => ?_
  cases o with
  | none => exact .err _
  | some u =>
    simp only [Option.map_some, hf.question]
    split
    · refine .bind .shouldBeEmpty fun _ => .bind (yaRly_maps hf hblock) fun y =>
        .bind (mebbes_maps hf hblock n n) fun c => .bind (noWai_maps hf hblock) fun b => .bind .nextTok fun o => ?_
      cases o with
      | none => exact .err _
      | some u =>
        simp (decide := true) only [Option.map_some, hf.keyword]
        split
        · exact .pure' (by simp [Node.swap])
        · exact .err _
    · exact .err _

omit hblock in
theorem accessStatement_maps (n : Nat) (t : Token) :
    Maps f (·.swap f) (parseAccessStatement n t) (parseAccessStatement n (f t)) := by
  refine .bind (access_maps hf n t) fun v => .bind .peekTok fun o => ?_
  cases o with
  | none => exact .pure' (by simp [Node.swap, Expr.swap, ExprValue.map])
  | some u =>
    have ha := VariableAssignment.maps hf n v
    have hb := BukkitSetSlot.maps hf n v
    simp only [Option.map_some]
    rcases hf.same u with h | ⟨k, k', hk, hk', h, h', -⟩
    case inr =>
      rw [hk, hk']
      split
      · next e => cases e; cases h'
      · next e => cases e; cases h'
      · split
        · next e => cases e; cases h
        · next e => cases e; cases h
        · exact .panic _
    generalize (f u).tokenType = x at h
    generalize u.tokenType = y at h
    cases h with
    | same =>
      cases x with
      | keyword k =>
        cases k <;> first
          | exact .panic _
          | exact .bind ha fun _ => .pure' (by simp [Node.swap])
          | exact .bind hb fun _ => .pure' (by simp [Node.swap])
      | _ => exact .panic _
    | _ => exact .panic _

theorem statement_maps (n : Nat) (t : Token) :
    Maps f (·.swap f) (parseStatement block n t) (parseStatement block n (f t)) := by
  cases hv : VariableAccess.isValid t with
  | true =>
    rw [parseStatement, parseStatement, hf.isValid, hv]
    exact accessStatement_maps hf n t
  | false =>
    have he : Maps f (·.swap f) (do let e ← parseExpr n t; pure (Node.expression e))
        (do let e ← parseExpr n (f t); pure (Node.expression e)) :=
      .bind (expr_maps hf n t) fun _ => .pure' (by simp [Node.swap])
    rcases hf.same t with h | ⟨k, k', hk, hk', h, h', -⟩
    case inr =>
      rw [statement_word (by rw [hf.isValid, hv]) hk h, statement_word hv hk' h']
      exact he
    rw [parseStatement, parseStatement, hf.isValid, hv]
    have h1 := IHasA.maps hf n t
    have h2 := Visible.maps hf n t
    have h3 := Gimmeh.maps hf n t
    have h4 := FoundYr.maps hf n t
    have h5 := Hai.maps (f := f) t
    have h6 := IIz.maps hf n t
    have h7 := imInYr_maps hf hblock n t
    have h8 := howIzI_maps hf hblock n t
    have h9 := wtf_maps hf hblock n t
    have h10 := oRly_maps hf hblock n t
    generalize (f t).tokenType = x at h
    generalize t.tokenType = y at h
    cases h with
    | same =>
      cases x with
      | keyword k =>
        cases k
        case I_HAS_A => exact .bind h1 fun _ => .pure' (by simp [Node.swap])
        case VISIBLE => exact .bind h2 fun _ => .pure' (by simp [Node.swap])
        case GIMMEH => exact .bind h3 fun _ => .pure' (by simp [Node.swap])
        case FOUND_YR => exact .bind h4 fun _ => .pure' (by simp [Node.swap])
        case HAI => exact .bind h5 fun _ => .pure' (by simp [Node.swap])
        case I_IZ => exact .bind h6 fun _ => .pure' (by simp [Node.swap])
        case KTHXBYE => exact .pure' (by simp [Node.swap])
        case GTFO => exact .pure' (by simp [Node.swap])
        case IM_IN_YR => exact h7
        case HOW_IZ_I => exact h8
        case WTF => exact h9
        case O_RLY => exact h10
        all_goals exact he
      | _ => exact he
    | _ => exact he

omit hf hblock in
theorem swapBlock_append (a b : List Node) : swapBlock f (a ++ b) = swapBlock f a ++ swapBlock f b := by
  induction a with
  | nil => simp [swapBlock]
  | cons x a ih => simp [swapBlock, ih]

/-- The rest of a round of `parseBlock`, after its nodes and errors are known. -/
private def blockRest (n : Nat) (stop : Token → Bool) (nodes errors : List Node) : Prog Block := do
  match ← peek with
  | none => pure (nodes ++ errors)
  | some token =>
    if stop token then pure (nodes ++ errors)
    else
      let more ← parseBlock n stop
      pure (nodes ++ errors ++ more)

omit hblock in
theorem block_maps (n : Nat) {stop : Token → Bool} (hs : ∀ t, stop (f t) = stop t) :
    Maps f (swapBlock f) (parseBlock n stop) (parseBlock n stop) := by
  induction n generalizing stop with
  | zero => exact .outOfFuel
  | succ n ih =>
    have htail : ∀ (p q : List Node → Prog Block), (∀ a, Maps f (swapBlock f) (p a) (q (swapBlock f a))) →
        Maps f (swapBlock f) (do
          match ← nextStatementShouldBeEmpty.toResult with
          | .ok _ => p []
          | .error e => p [Node.astError e]) (do
          match ← nextStatementShouldBeEmpty.toResult with
          | .ok _ => q []
          | .error e => q [Node.astError e]) := by
      intro p q h
      refine .bind Maps.shouldBeEmpty.toResult fun r => ?_
      cases r with
      | ok _ =>
        have h0 := h []
        simp only [swapBlock] at h0
        exact h0
      | error e =>
        have h0 := h [.astError e]
        simp only [swapBlock, Node.swap] at h0
        exact h0
    have hmore : ∀ nodes nodes' errors : List Node, nodes' = swapBlock f nodes →
        Maps f (swapBlock f) (blockRest n stop nodes errors) (blockRest n stop nodes' (swapBlock f errors)) := by
      intro nodes nodes' errors hn
      subst hn
      refine .bind .peekTok fun o => ?_
      cases o with
      | none => exact .pure' (by simp [swapBlock_append])
      | some t =>
        simp only [Option.map_some, hs]
        split
        · exact .pure' (by simp [swapBlock_append])
        · exact .bind (ih hs) fun _ => .pure' (by simp [swapBlock_append])
    rw [parseBlock]
    refine .bind .nextTok fun o => ?_
    cases o with
    | none => exact htail (blockRest n stop []) (blockRest n stop []) fun a => hmore [] [] a (by simp [swapBlock])
    | some t =>
      refine .bind (statement_maps hf ih n t).toResult fun r => ?_
      cases r with
      | ok node =>
        exact htail (blockRest n stop [node]) (blockRest n stop [node.swap f]) fun a =>
          hmore [node] [node.swap f] a (by simp [swapBlock])
      | error e =>
        exact htail (blockRest n stop [.astError e]) (blockRest n stop [.astError (e.map f)]) fun a =>
          hmore [.astError e] [.astError (e.map f)] a (by simp [swapBlock, Node.swap])

end

end Swap

end Lol
