import Verif.Parser.Convert
import Verif.Parser.StmtSpec
import Verif.Parser.SimpleComplete
import Verif.Props.ParserIterator
import Verif.Props.ParserTree

/-! # Properties of conversions (C64) -/

namespace Lol

/-! ## C64: types and values -/

/-- **C64** A token converts to a type exactly when it is the keyword of that type, and the type gives the token
back. -/
theorem C64_type (t : Token) (ty : ASTType) :
    ASTType.tryFrom t = some ty ↔ ty.intoToken = t ∧ t.Is ty.keyword := by
  constructor
  · intro h
    obtain ⟨rfl, h⟩ := tryFrom_some h
    cases ty <;> exact ⟨rfl, h⟩
  · rintro ⟨rfl, h⟩
    have e : ty.intoToken = ty.token := by cases ty <;> rfl
    rw [e] at h ⊢
    exact tryFrom_of h

-- The six types
example : [Keyword.BUKKIT, .NUMBR, .NUMBAR, .YARN, .TROOF, .NOOB].map
      (fun k => (ASTType.tryFrom ⟨.keyword k, ⟨.default, .default⟩⟩).map ASTType.keyword) =
    [some .BUKKIT, some .NUMBR, some .NUMBAR, some .YARN, some .TROOF, some .NOOB] := by decide +kernel

/-- **C64** So a token converts to a type if and only if it is one of six keywords. -/
theorem C64_type_iff (t : Token) :
    ASTType.tryFrom t ≠ none ↔ ∃ k ∈ [Keyword.BUKKIT, .NUMBR, .NUMBAR, .YARN, .TROOF, .NOOB], t.Is k := by
  constructor
  · intro h
    obtain ⟨ty, h⟩ := Option.ne_none_iff_exists'.1 h
    obtain ⟨-, h⟩ := (C64_type t ty).1 h
    exact ⟨_, by cases ty <;> simp [ASTType.keyword], h⟩
  · rintro ⟨k, hk, h⟩
    unfold Token.Is at h
    simp only [List.mem_cons, List.not_mem_nil, or_false] at hk
    rcases hk with rfl | rfl | rfl | rfl | rfl | rfl <;> simp [ASTType.tryFrom, h]

example (t : Token) (h : t.Is .YARN) : ASTType.tryFrom t ≠ none ∧ (ASTType.tryFrom t).map (·.intoToken) = some t := by
  have h' : t.tokenType = .keyword .YARN := h
  simp [ASTType.tryFrom, h', ASTType.intoToken]

/-- **C64** A token converts to a value exactly when it is a value token. -/
theorem C64_value (t : Token) (v : ExprValue) :
    ExprValue.tryFrom t = some v ↔ v = .literal t ∧ ∃ x, t.tokenType = .value x := by
  unfold ExprValue.tryFrom
  split
  · next x h => exact ⟨fun e => ⟨(Option.some.inj e).symm, x, h⟩, fun e => by rw [e.1]⟩
  · next h =>
    constructor
    · intro e; cases e
    · rintro ⟨-, x, hx⟩; exact absurd hx (h x)

/-- **C64** Then `ASTExpression::parse` reads the token as that value, without a look at the tokens that follow. -/
theorem C64_value_parse {t : Token} {v : ExprValue} (h : ExprValue.tryFrom t = some v) (fuel : Nat) :
    parseExpr (fuel + 1) t = pure (.value v) := by
  obtain ⟨rfl, x, hx⟩ := (C64_value t v).1 h
  simp only [parseExpr, hx]

-- A literal from a source
example : ∃ t, tokenize chars!"12 " = .ok (.ok [t]) ∧ ExprValue.tryFrom t = some (.literal t) := by
  refine ⟨_, rfl, ?_⟩; decide +kernel

/-- **C64** The converse fails for one token: the keyword `NOOB` is read as a literal by `ASTExpression::parse` but does
not convert to a value. -/
theorem C64_value_noob (t : Token) (h : t.Is .NOOB) (fuel : Nat) :
    parseExpr (fuel + 1) t = pure (.value (.literal t)) ∧ ExprValue.tryFrom t = none := by
  have h' : t.tokenType = .keyword .NOOB := h
  simp only [parseExpr, ExprValue.tryFrom, h', and_self]

example : Token.Is .NOOB ⟨.keyword .NOOB, ⟨.default, .default⟩⟩ := rfl

/-- **C64** No source has that token: among the tokens of a source the literals are those that convert to a value. -/
theorem C64_value_source {code : Str} {ts : List Token} (h : tokenize code = .ok (.ok ts)) {t : Token} (ht : t ∈ ts) :
    t.IsLiteral ↔ ExprValue.tryFrom t = some (.literal t) := by
  rw [C64_value]
  constructor
  · rintro (hx | hn)
    · exact ⟨rfl, hx⟩
    · exact absurd rfl (C11_never_emitted h ht hn).2.2.1
  · exact fun hx => .inl hx.2

-- A number, the value `NOOB`, and an identifier
example : ∃ a b c, tokenize chars!"12 NOOB x" = .ok (.ok [a, b, c]) ∧
    [a, b, c].map (fun t => (ExprValue.tryFrom t).isSome) = [true, true, false] := by
  refine ⟨_, _, _, rfl, ?_⟩; decide +kernel

/-- **C64** So no declaration in the tree of a source has the type `NOOB`; `ITZ NOOB` gives an expression. -/
theorem C64_no_noob_type {code : Str} {nodes : Block} (h : tokenizeAndParse code = .ok (.ok nodes)) {n : IHasA}
    (hn : .iHasA n ∈ allNodes nodes) {ty : ASTType} (hty : n.initialValue = some (.type ty)) : ty.keyword ≠ .NOOB := by
  obtain ⟨tokens, h1, h2⟩ := (C46_ok_iff code nodes).1 h
  obtain ⟨h3, h4⟩ := allNodes_wf nodes (C50_well_formed tokens nodes h2) _ hn
  have h5 : ty.token.Is ty.keyword := by
    obtain ⟨-, -, h⟩ := h3
    exact h _ hty
  have h6 : ty.token ∈ tokens := by
    refine (h4.trans (C22_tokens_sublist tokens nodes h2)).subset ?_
    simp [Node.toks, hty, IHasAInitialValue.toks]
  exact (C11_never_emitted h1 h6 h5).2.2.1

-- `NOOB` is an expression, `YARN` a type
example : ∃ a b, tokenizeAndParse chars!"I HAS A x ITZ NOOB\nI HAS A y ITZ YARN" = .ok (.ok [.iHasA a, .iHasA b]) ∧
    (∃ t, a.initialValue = some (.expression (.value (.literal t)))) ∧ ∃ t, b.initialValue = some (.type (.yarn t)) :=
  ⟨_, _, rfl, ⟨_, rfl⟩, _, rfl⟩

/-! ## C64: statements -/

/-- **C64** An iterator made of a list of statements forgets where they end: it is the iterator of all their tokens. -/
theorem C64_statements (L : List (List Token)) (k : Nat) :
    (StatementIterator.ofStatements L).statement k = stmt L.flatten k := C24_statements L.flatten k

/-- A statement on a line of its own. -/
def OwnLine (st : List Token) : Prop :=
  st ≠ [] ∧ (∀ t ∈ st, t.tokenType ≠ .comma ∧ t.tokenType ≠ .ellipsis) ∧
    ∀ t ∈ st, ∀ u ∈ st, t.range.start.line = u.range.start.line

theorem splitFrom_line {l : Int} {ts R : List Token} (h : ∀ t ∈ ts, t.range.start.line = l)
    (hs : ∀ t ∈ ts, t.tokenType ≠ .comma ∧ t.tokenType ≠ .ellipsis)
    (hR : ∀ u r, R = u :: r → u.range.start.line ≠ l ∧ u.tokenType ≠ .comma ∧ u.tokenType ≠ .ellipsis) :
    splitFrom (ts ++ R) l = ⟨ts, splitGap R⟩ := by
  induction ts with
  | nil =>
    cases R with
    | nil => simp [splitFrom, splitGap]
    | cons u r =>
      obtain ⟨h1, h2, h3⟩ := hR u r rfl
      simp [splitFrom, splitGap, h1, h2, h3]
  | cons t ts ih =>
    have h1 := h t (by simp)
    have h2 := hs t (by simp)
    rw [List.cons_append, splitFrom, if_neg h2.1, if_pos h1, if_neg h2.2,
      ih (fun u hu => h u (by simp [hu])) fun u hu => hs u (by simp [hu])]
    rfl

theorem splitGap_own : (L : List (List Token)) → (∀ st ∈ L, OwnLine st) →
    L.Pairwise (fun a b => ∀ t ∈ a, ∀ u ∈ b, t.range.start.line ≠ u.range.start.line) → splitGap L.flatten = L
  | [], _, _ => by simp [splitGap]
  | [] :: L, h, _ => absurd rfl (h [] (by simp)).1
  | (t :: ts) :: L, h, hp => by
    rw [List.pairwise_cons] at hp
    have ih := splitGap_own L (fun st hst => h st (by simp [hst])) hp.2
    obtain ⟨-, h2, h3⟩ := h (t :: ts) (by simp)
    have ht := h2 t (by simp)
    rw [List.flatten_cons, List.cons_append, splitGap, if_neg ht.1, if_neg ht.2,
      splitFrom_line (fun u hu => h3 u (by simp [hu]) t (by simp)) (fun u hu => h2 u (by simp [hu])) ?_, ih]
    · rfl
    · intro u r hu
      cases L with
      | nil => cases hu
      | cons st L =>
        have hst := h st (by simp)
        cases st with
        | nil => exact absurd rfl hst.1
        | cons v st =>
          cases hu
          exact ⟨fun e => hp.1 (u :: st) (by simp) t (by simp) u (by simp) e.symm, hst.2.1 u (by simp)⟩

/-- **C64** Statements on different lines, without commas and ellipses, are delivered one by one. -/
theorem C64_own_lines {L : List (List Token)} (h : ∀ st ∈ L, OwnLine st)
    (hp : L.Pairwise fun a b => ∀ t ∈ a, ∀ u ∈ b, t.range.start.line ≠ u.range.start.line) (k : Nat) :
    (StatementIterator.ofStatements L).statement k = L.getD k [] := by
  rw [C64_statements]
  have hg := splitGap_own L h hp
  cases L with
  | nil => cases k <;> simp [stmt, split, splitFrom, firstLine, Stmts.all]
  | cons st L =>
    have hst := h st (by simp)
    cases st with
    | nil => exact absurd rfl hst.1
    | cons t ts =>
      have ht := hst.2.1 t (by simp)
      have : (split ((t :: ts) :: L).flatten).all = splitGap ((t :: ts) :: L).flatten := by
        rw [List.flatten_cons, List.cons_append, split, splitFrom, splitGap, firstLine, if_neg ht.1, if_neg ht.2,
          if_pos rfl, if_neg ht.2, if_neg ht.1]
      rw [stmt, this, hg]

-- Two statements on two lines
example : ∃ a b c d, tokenize chars!"GIMMEH x\nVISIBLE x" = .ok (.ok [a, b, c, d]) ∧
    (∀ st ∈ [[a, b], [c, d]], OwnLine st) ∧
    ([[a, b], [c, d]].Pairwise fun a b => ∀ t ∈ a, ∀ u ∈ b, t.range.start.line ≠ u.range.start.line) := by
  refine ⟨_, _, _, _, rfl, ?_, ?_⟩
  · unfold OwnLine; decide +kernel
  · decide +kernel

/-- **C64** Without that the division is lost: two statements on one line become one. -/
theorem C64_division_lost : ∃ a b, tokenize chars!"GTFO GTFO" = .ok (.ok [a, b]) ∧
    (StatementIterator.ofStatements [[a], [b]]).statement 0 = [a, b] := by
  refine ⟨_, _, rfl, ?_⟩; decide +kernel

end Lol
