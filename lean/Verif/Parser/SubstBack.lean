import Verif.Parser.SubstLemmas
import Verif.Props.ParserExpr

/-! # Taking back the expressions put in place of literals: lemmas -/

namespace Lol

variable {σ : Token → Option Expr}

/-- The keyword names an operator. -/
def Keyword.isOp : Keyword → Bool
  | .EITHER_OF | .WON_OF | .SUM_OF | .DIFF_OF | .PRODUKT_OF | .QUOSHUNT_OF | .MOD_OF | .BIGGR_OF | .SMALLR_OF
  | .BOTH_SAEM | .BOTH_OF | .DIFFRINT | .NOT | .ALL_OF | .SMOOSH | .ANY_OF => true
  | _ => false

/-- The token is neither a value nor an operator. -/
def Token.Stays (t : Token) : Prop := (∀ v, t.tokenType ≠ .value v) ∧ ∀ k, t.Is k → k.isOp = false

theorem Token.Is.stays {t : Token} {k : Keyword} (h : t.Is k) (hk : k.isOp = false := by rfl) : t.Stays := by
  refine ⟨h.not_value, fun k' h' => ?_⟩
  have h1 : t.tokenType = .keyword k := h
  have h2 : t.tokenType = .keyword k' := h'
  rw [h1] at h2
  cases h2
  exact hk

theorem Token.stays_of {t : Token} {ty : TokenType} (h : t.tokenType = ty) (h1 : ∀ v, ty ≠ .value v)
    (h2 : ∀ k, ty ≠ .keyword k) : t.Stays :=
  ⟨fun v => by rw [h]; exact h1 v, fun k hk => absurd (h.symm.trans hk) (h2 k)⟩

theorem Token.IsIdent.stays {t : Token} (h : t.IsIdent) : t.Stays := by
  obtain ⟨n, hn⟩ := h
  exact stays_of hn (by simp) (by simp)

theorem Token.IsQuestion.stays {t : Token} (h : t.IsQuestion) : t.Stays :=
  stays_of h (by simp) (by simp)

theorem Identifier.WF.stays {i : Identifier} (h : i.WF) : ∀ t ∈ i.toks, t.Stays := by
  intro t ht
  simp only [Identifier.toks, List.mem_append, Option.mem_toList, List.mem_singleton] at ht
  rcases ht with ht | rfl
  · exact (h.2 t ht).stays
  · exact h.1.stays

theorem VariableAccess.WF.stays {v : VariableAccess} (h : v.WF) : ∀ t ∈ v.toks, t.Stays := by
  intro t ht
  simp only [VariableAccess.toks, List.mem_append, List.mem_flatMap] at ht
  rcases ht with ht | ⟨s, hs, ht⟩
  · exact h.1.stays t ht
  · obtain ⟨h1, h2⟩ := h.2 s hs
    simp only [VariableAccessSlot.toks, List.mem_cons] at ht
    rcases ht with rfl | ht
    · exact Token.stays_of h1 (by simp) (by simp)
    · exact h2.stays t ht

theorem Token.option_stays {k : Keyword} {an : Option Token} (h : ∀ t ∈ an, t.Is k) (hk : k.isOp = false := by rfl) :
    ∀ t ∈ an.toList, t.Stays := fun t ht => (h t (by simpa using ht)).stays hk

theorem ASTType.stays {ty : ASTType} (h : ty.token.Is ty.keyword) : ty.token.Stays :=
  h.stays (by cases ty <;> rfl)

/-! ## Tokens -/

theorem ReplacesFirmly.head (H : ReplacesFirmly σ) {t u : Token} {e : Expr} {r : List Token} (h : σ t = some e)
    (hu : e.toks = u :: r) : ¬ u.Stays := by
  obtain ⟨-, h1, -, h2⟩ := H.1 t e h
  have h3 := H.2 t e h
  intro hs
  match e, h1, h2, h3, hu with
  | .value (.variableAccess v), _, _, h3, _ => exact h3 trivial
  | .value (.literal l), h1, h2, _, hu =>
    cases hu
    rw [Expr.WF] at h1
    rcases h1 with ⟨v, hv⟩ | h1
    · exact hs.1 v hv
    · exact h2 ⟨u, rfl, h1⟩
  | .unary op _, h1, _, _, hu =>
    cases hu
    rw [Expr.WF] at h1
    have := hs.2 _ h1.1
    cases op
    cases this
  | .binary op _ _ _, h1, _, _, hu =>
    cases hu
    rw [Expr.WF] at h1
    have := hs.2 _ h1.1
    cases op <;> cases this
  | .nary op _ _, h1, _, _, hu =>
    cases hu
    rw [Expr.WF] at h1
    have := hs.2 _ h1.1
    cases op <;> cases this

theorem putInTokens_some {t : Token} {e : Expr} (h : σ t = some e) (r : List Token) :
    putInTokens σ (t :: r) = e.toks ++ putInTokens σ r := by
  rw [putInTokens, List.flatMap_cons, h]
  rfl

theorem putInTokens_none {t : Token} (h : σ t = none) (r : List Token) :
    putInTokens σ (t :: r) = t :: putInTokens σ r := by
  rw [putInTokens, List.flatMap_cons, h]
  rfl

theorem putInTokens_nil_iff {ts : List Token} : putInTokens σ ts = [] ↔ ts = [] := by
  constructor
  · intro h
    cases ts with
    | nil => rfl
    | cons t r =>
      cases hs : σ t with
      | none => rw [putInTokens_none hs] at h; cases h
      | some e =>
        obtain ⟨u, us, hu⟩ := e.toks_ne
        rw [putInTokens_some hs, hu] at h
        cases h
  · rintro rfl
    rfl

theorem ReplacesFirmly.uncons (H : ReplacesFirmly σ) {ts r : List Token} {t : Token}
    (h : putInTokens σ ts = t :: r) (ht : t.Stays) : ∃ r0, ts = t :: r0 ∧ putInTokens σ r0 = r := by
  cases ts with
  | nil => cases h
  | cons u us =>
    cases hs : σ u with
    | none =>
      rw [putInTokens_none hs] at h
      cases h
      exact ⟨us, rfl, rfl⟩
    | some e =>
      obtain ⟨x, xs, hx⟩ := e.toks_ne
      rw [putInTokens_some hs, hx] at h
      cases h
      exact absurd ht (H.head hs hx)

theorem ReplacesFirmly.unprefix (H : ReplacesFirmly σ) : {a ts r : List Token} → (∀ t ∈ a, t.Stays) →
    putInTokens σ ts = a ++ r → ∃ r0, ts = a ++ r0 ∧ putInTokens σ r0 = r
  | [], ts, _, _, h => ⟨ts, rfl, h⟩
  | t :: a, ts, r, ha, h => by
    obtain ⟨r0, rfl, h1⟩ := H.uncons h (ha t (by simp))
    obtain ⟨r1, rfl, h2⟩ := H.unprefix (a := a) (fun t ht => ha t (by simp [ht])) h1
    exact ⟨r1, rfl, h2⟩

theorem ReplacesFirmly.exactly (H : ReplacesFirmly σ) {a ts : List Token} (ha : ∀ t ∈ a, t.Stays)
    (h : putInTokens σ ts = a) : ts = a := by
  obtain ⟨r, rfl, h1⟩ := H.unprefix (r := []) ha (by rw [List.append_nil]; exact h)
  rw [putInTokens_nil_iff.1 h1, List.append_nil]

theorem NoSlot.back (H : ReplacesFirmly σ) {ts : List Token} (h : NoSlot (putInTokens σ ts)) : NoSlot ts := by
  rintro t r rfl ht
  rw [putInTokens_cons H.1 (by rw [ht]; simp), NoSlot.cons_iff] at h
  exact h ht

/-! ## Expressions -/

theorem Expr.putIn_access {e : Expr} {v : VariableAccess} (h : e = .value (.variableAccess v)) :
    e.putIn σ = .value (.variableAccess v) := by
  subst h
  rw [Expr.putIn]

/-- The tokens begin with a replaced literal, or their first token is that of the expression. -/
theorem ReplacesFirmly.step (H : ReplacesFirmly σ) {e : Expr} {rest ts : List Token} (hg : e.G rest)
    (h : putInTokens σ ts = e.toks ++ rest) :
    (∃ (e0 : Expr) (rest0 : List Token), ts = e0.toks ++ rest0 ∧ e0.G rest0 ∧ e0.putIn σ = e ∧
        putInTokens σ rest0 = rest) ∨
      ∃ t r, ts = t :: r ∧ σ t = none ∧ t :: putInTokens σ r = e.toks ++ rest := by
  cases ts with
  | nil =>
    obtain ⟨u, us, hu⟩ := e.toks_ne
    rw [hu] at h
    cases h
  | cons t r =>
    cases hs : σ t with
    | none =>
      rw [putInTokens_none hs] at h
      exact .inr ⟨t, r, rfl, hs, h⟩
    | some x =>
      rw [putInTokens_some hs] at h
      obtain ⟨⟨v, hv⟩, h1, h2, -⟩ := H.1 t x hs
      obtain ⟨h3, h4⟩ := (Expr.G_iff e rest).1 hg
      obtain ⟨rfl, h5⟩ := C27_unambiguous h1 h3 ⟨fun ho => absurd ho h2, fun he => absurd he (H.2 t x hs)⟩ h4 h
      refine .inl ⟨.value (.literal t), r, rfl, ?_, ?_, h5⟩
      · rw [Expr.G]
        exact .inl ⟨v, hv⟩
      · rw [Expr.putIn, hs]
        rfl

mutual

theorem Expr.back (H : ReplacesFirmly σ) : (e : Expr) → (rest ts : List Token) → e.G rest →
    putInTokens σ ts = e.toks ++ rest →
    ∃ (e0 : Expr) (rest0 : List Token), ts = e0.toks ++ rest0 ∧ e0.G rest0 ∧ e0.putIn σ = e ∧ putInTokens σ rest0 = rest
  | .value (.variableAccess v), rest, ts, hg, h => by
    rcases H.step hg h with hd | ⟨t, r, rfl, hs, -⟩
    · exact hd
    rw [Expr.toks, ExprValue.toks] at h
    rw [Expr.G] at hg
    obtain ⟨r0, h1, rfl⟩ := H.unprefix hg.1.stays h
    refine ⟨.value (.variableAccess v), r0, ?_, ?_, ?_, rfl⟩
    · rw [Expr.toks, ExprValue.toks]; exact h1
    · rw [Expr.G]; exact ⟨hg.1, hg.2.back H⟩
    · rw [Expr.putIn]
  | .value (.literal l), rest, ts, hg, h => by
    rcases H.step hg h with hd | ⟨t, r, rfl, hs, h1⟩
    · exact hd
    rw [Expr.toks, ExprValue.toks] at h1
    obtain ⟨rfl, rfl⟩ := List.cons.inj h1
    refine ⟨.value (.literal t), r, rfl, hg, ?_, rfl⟩
    rw [Expr.putIn, hs]
    rfl
  | .unary op e, rest, ts, hg, h => by
    rcases H.step hg h with hd | ⟨t, r, rfl, hs, h1⟩
    · exact hd
    rw [Expr.toks, List.cons_append, List.cons.injEq] at h1
    obtain ⟨rfl, h1⟩ := h1
    rw [Expr.G] at hg
    obtain ⟨e0, r0, rfl, g1, g2, g3⟩ := Expr.back H e rest r hg.2 h1
    refine ⟨.unary op e0, r0, ?_, ?_, ?_, g3⟩
    · rw [Expr.toks]; rfl
    · rw [Expr.G]; exact ⟨hg.1, g1⟩
    · rw [Expr.putIn, g2]
  | .binary op l an r, rest, ts, hg, h => by
    rcases H.step hg h with hd | ⟨t, tr, rfl, hs, h1⟩
    · exact hd
    rw [Expr.toks, List.cons_append, List.cons.injEq] at h1
    obtain ⟨rfl, h1⟩ := h1
    rw [Expr.G] at hg
    obtain ⟨hg1, hg2, hg3, hg4⟩ := hg
    obtain ⟨l0, r0, rfl, g1, g2, g3⟩ := Expr.back H l _ tr hg2 (by rw [h1]; simp)
    obtain ⟨r1, rfl, g4⟩ := H.unprefix (Token.option_stays hg3) g3
    obtain ⟨e0, r2, rfl, g5, g6, g7⟩ := Expr.back H r rest r1 hg4 g4
    refine ⟨.binary op l0 an e0, r2, ?_, ?_, ?_, g7⟩
    · rw [Expr.toks]; simp
    · rw [Expr.G]; exact ⟨hg1, g1, hg3, g5⟩
    · rw [Expr.putIn, g2, g6]
  | .nary op es mkay, rest, ts, hg, h => by
    rcases H.step hg h with hd | ⟨t, tr, rfl, hs, h1⟩
    · exact hd
    rw [Expr.toks, List.cons_append, List.cons.injEq] at h1
    obtain ⟨rfl, h1⟩ := h1
    rw [Expr.G] at hg
    obtain ⟨hg1, hg2, hg3, hg4⟩ := hg
    obtain ⟨es0, r0, rfl, g1, g2, g3⟩ := backOperands H es _ tr hg2 (by rw [h1]; simp)
    obtain ⟨r1, rfl, g4⟩ := H.unprefix (Token.option_stays hg3) g3
    refine ⟨.nary op es0 mkay, r1, ?_, ?_, ?_, g4⟩
    · rw [Expr.toks]; simp
    · rw [Expr.G]
      exact ⟨hg1, g1, hg3, fun hm => putInTokens_nil_iff.1 (g4.trans (hg4 hm))⟩
    · rw [Expr.putIn, g2]

theorem backOperands (H : ReplacesFirmly σ) : (es : List Operand) → (rest ts : List Token) → GOperands es rest →
    putInTokens σ ts = toksOperands es ++ rest →
    ∃ es0 rest0, ts = toksOperands es0 ++ rest0 ∧ GOperands es0 rest0 ∧ putInOperands σ es0 = es ∧
      putInTokens σ rest0 = rest
  | [], rest, ts, _, h => ⟨[], ts, rfl, trivial, rfl, h⟩
  | .mk e an :: es, rest, ts, hg, h => by
    rw [GOperands] at hg
    rw [toksOperands] at h
    obtain ⟨e0, r0, rfl, g1, g2, g3⟩ := Expr.back H e _ ts hg.1 (by rw [h]; simp)
    obtain ⟨r1, rfl, g4⟩ := H.unprefix (Token.option_stays hg.2.1) g3
    obtain ⟨es0, r2, rfl, g5, g6, g7⟩ := backOperands H es rest r1 hg.2.2 g4
    refine ⟨.mk e0 an :: es0, r2, ?_, ?_, ?_, g7⟩
    · rw [toksOperands]; simp
    · rw [GOperands]; exact ⟨g1, hg.2.1, g5⟩
    · rw [putInOperands, g2, g6]

end

/-- An expression at the end of a statement. -/
theorem ReplacesFirmly.last (H : ReplacesFirmly σ) {e : Expr} {ts : List Token} (he : e.WF)
    (h : putInTokens σ ts = e.toks) : ∃ e0 : Expr, ts = e0.toks ∧ e0.WF ∧ e0.putIn σ = e := by
  obtain ⟨e0, r0, rfl, h1, h2, h3⟩ := Expr.back H e [] ts ((Expr.G_iff e []).2 ⟨he, .nil⟩) (by rw [h]; simp)
  rw [putInTokens_nil_iff.1 h3, List.append_nil]
  exact ⟨e0, rfl, ((Expr.G_iff e0 r0).1 h1).1, h2⟩

theorem FollowAll.back (H : ReplacesFirmly σ) : (es : List Expr) → (rest ts : List Token) → FollowAll es rest →
    putInTokens σ ts = es.flatMap Expr.toks ++ rest →
    ∃ es0 rest0, ts = es0.flatMap Expr.toks ++ rest0 ∧ FollowAll es0 rest0 ∧ putInTokens σ rest0 = rest
  | [], rest, ts, _, h => ⟨[], ts, rfl, trivial, h⟩
  | e :: es, rest, ts, hf, h => by
    rw [FollowAll] at hf
    obtain ⟨e0, r0, rfl, g1, g2, g3⟩ := Expr.back H e _ ts ((Expr.G_iff e _).2 ⟨hf.1, hf.2.1⟩) (by rw [h]; simp)
    obtain ⟨es0, r1, rfl, g4, g5⟩ := FollowAll.back H es rest r0 hf.2.2 g3
    refine ⟨e0 :: es0, r1, by simp, ?_, g5⟩
    rw [FollowAll]
    obtain ⟨h1, h2⟩ := (Expr.G_iff _ _).1 g1
    exact ⟨h1, h2, g4⟩

theorem ArgsG.back (H : ReplacesFirmly σ) {rest ats : List Token} {es : List Expr} (h : ArgsG rest ats es) :
    ∀ ts, putInTokens σ ts = ats ++ rest →
    ∃ ats0 rest0 es0, ts = ats0 ++ rest0 ∧ ArgsG rest0 ats0 es0 ∧ putInTokens σ rest0 = rest := by
  induction h with
  | nil => exact fun ts hs => ⟨[], ts, [], rfl, .nil, hs⟩
  | @one yr e h1 h2 h3 =>
    intro ts hs
    obtain ⟨r0, rfl, g1⟩ := H.uncons hs h1.stays
    obtain ⟨e0, r1, rfl, g2, -, g3⟩ := Expr.back H e rest r0 ((Expr.G_iff e _).2 ⟨h2, h3⟩) g1
    obtain ⟨g4, g5⟩ := (Expr.G_iff _ _).1 g2
    exact ⟨yr :: e0.toks, r1, [e0], rfl, .one h1 g4 g5, g3⟩
  | @cons yr e an ats es h1 h2 h3 h4 _ ih =>
    intro ts hs
    obtain ⟨r0, rfl, g1⟩ := H.uncons hs h1.stays
    obtain ⟨e0, r1, rfl, g2, g3, g4⟩ := Expr.back H e (an :: (ats ++ rest)) r0
      ((Expr.G_iff e _).2 ⟨h2, fun ho => absurd ho h3, fun _ => NoSlot.keyword h4⟩) (by rw [g1]; simp)
    obtain ⟨r2, rfl, g5⟩ := H.uncons g4 h4.stays
    obtain ⟨ats0, r3, es0, rfl, g6, g7⟩ := ih r2 g5
    refine ⟨yr :: (e0.toks ++ an :: ats0), r3, e0 :: es0, by simp, .cons h1 ((Expr.G_iff _ _).1 g2).1 ?_ h4 g6, g7⟩
    rw [← Expr.putIn_open H.1, g3]
    exact h3

/-! ## Statements -/

theorem SimpleG.back (H : ReplacesFirmly σ) {ts ts' : List Token} {node : Node} (h : SimpleG [] ts' node)
    (hs : putInTokens σ ts = ts') : ∃ node0, SimpleG [] ts node0 := by
  cases h with
  | @declaration t i h1 h2 h3 =>
    obtain ⟨r, rfl, g1⟩ := H.uncons hs h1.stays
    rw [H.exactly h2.stays g1]
    exact ⟨_, .declaration h1 h2 h3⟩
  | @declarationType t i itz ty h1 h2 h3 h4 =>
    obtain ⟨r, rfl, g1⟩ := H.uncons hs h1.stays
    obtain ⟨r, rfl, g2⟩ := H.unprefix h2.stays g1
    obtain ⟨r, rfl, g3⟩ := H.uncons g2 h3.stays
    rw [H.exactly (by simpa using ASTType.stays h4) g3]
    exact ⟨_, .declarationType h1 h2 h3 h4⟩
  | @declarationExpr t i itz e h1 h2 h3 h4 h5 h6 =>
    obtain ⟨r, rfl, g1⟩ := H.uncons hs h1.stays
    obtain ⟨r, rfl, g2⟩ := H.unprefix h2.stays g1
    obtain ⟨r, rfl, g3⟩ := H.uncons g2 h3.stays
    obtain ⟨e0, rfl, g4, g5⟩ := H.last h4 g3
    refine ⟨_, .declarationExpr h1 h2 h3 g4 .nil ?_⟩
    rintro ⟨l, rfl, hl⟩
    rw [Expr.putIn, H.1.none hl.not_value] at g5
    exact h6 ⟨l, g5.symm, hl⟩
  | @assignment v r e h1 h2 h3 h4 =>
    obtain ⟨r, rfl, g1⟩ := H.unprefix h1.stays hs
    obtain ⟨r, rfl, g2⟩ := H.uncons g1 h2.stays
    obtain ⟨e0, rfl, g4, -⟩ := H.last h3 g2
    exact ⟨_, .assignment h1 h2 g4 .nil⟩
  | @setSlot v g i itz e h1 h2 h3 h4 h5 h6 =>
    obtain ⟨r, rfl, g1⟩ := H.unprefix h1.stays hs
    obtain ⟨r, rfl, g2⟩ := H.uncons g1 h2.stays
    obtain ⟨r, rfl, g3⟩ := H.unprefix h3.stays g2
    obtain ⟨r, rfl, g4⟩ := H.uncons g3 h4.stays
    obtain ⟨e0, rfl, g5, -⟩ := H.last h5 g4
    exact ⟨_, .setSlot h1 h2 h3 h4 g5 .nil⟩
  | @access v h1 h2 =>
    rw [H.exactly h1.stays hs]
    exact ⟨_, .access h1 h2⟩
  | @expression e h1 h2 h3 =>
    obtain ⟨e0, rfl, g1, g2⟩ := H.last h1 hs
    refine ⟨_, .expression g1 .nil fun v hv => h3 v ?_⟩
    rw [← g2, Expr.putIn_access hv]
  | @visible t es ex h1 h2 h3 h4 =>
    rw [List.append_nil] at h2
    obtain ⟨r, rfl, g1⟩ := H.uncons hs h1.stays
    obtain ⟨es0, r, rfl, g2, g3⟩ := FollowAll.back H es ex.toList r h2 g1
    obtain rfl := H.exactly (fun x hx => Token.stays_of (h3 x (by simpa using hx)) (by simp) (by simp)) g3
    exact ⟨_, .visible h1 (by rw [List.append_nil]; exact g2) h3 h4⟩
  | @gimmeh t v h1 h2 h3 =>
    obtain ⟨r, rfl, g1⟩ := H.uncons hs h1.stays
    rw [H.exactly h2.stays g1]
    exact ⟨_, .gimmeh h1 h2 h3⟩
  | @foundYr t e h1 h2 h3 =>
    obtain ⟨r, rfl, g1⟩ := H.uncons hs h1.stays
    obtain ⟨e0, rfl, g2, -⟩ := H.last h2 g1
    exact ⟨_, .foundYr h1 g2 .nil⟩
  | @call t v ts es mkay h1 h2 h3 h4 =>
    obtain ⟨r, rfl, g1⟩ := H.uncons hs h1.stays
    obtain ⟨r, rfl, g2⟩ := H.unprefix h2.stays g1
    obtain ⟨ats, r, es0, rfl, g3, g4⟩ := ArgsG.back H h3 r g2
    obtain rfl := H.exactly (by simpa using h4.stays) g4
    exact ⟨_, .call h1 h2 g3 h4⟩
  | gtfo h1 =>
    rw [H.exactly (by simpa using h1.stays) hs]
    exact ⟨_, .gtfo h1⟩
  | kThxBye h1 =>
    rw [H.exactly (by simpa using h1.stays) hs]
    exact ⟨_, .kThxBye h1⟩

/-- A statement that does not begin with `HAI` does not come from one that does. -/
theorem putIn_tokens {ts ts' : List Token} (h : putIn σ ts = ts') (hn : ∀ t r, ts' = t :: r → ¬ t.Is .HAI) :
    putInTokens σ ts = ts' := by
  rw [← h]
  refine (putIn_eq ?_).symm
  rintro t r rfl ht
  rw [putIn, if_pos ht] at h
  exact hn t r h.symm ht

theorem putIn_nil_iff {ts : List Token} : putIn σ ts = [] ↔ ts = [] := by
  cases ts with
  | nil => exact Iff.rfl
  | cons t r =>
    rw [putIn]
    split
    · exact Iff.rfl
    · exact putInTokens_nil_iff

theorem ReplacesFirmly.start (H : ReplacesFirmly σ) {ts r : List Token} {t : Token} {k : Keyword}
    (h : putIn σ ts = t :: r) (ht : t.Is k) (hk : k ≠ .HAI := by decide) (ho : k.isOp = false := by rfl) :
    ∃ r0, ts = t :: r0 ∧ putInTokens σ r0 = r := by
  refine H.uncons (putIn_tokens h ?_) (ht.stays ho)
  intro t' r' he
  cases he
  exact ht.ne hk

theorem ReplacesFirmly.haiStart (H : ReplacesFirmly σ) {ts r : List Token} {t : Token}
    (h : putIn σ ts = t :: r) (ht : t.Is .HAI) : ∃ r0, ts = t :: r0 := by
  cases ts with
  | nil => cases h
  | cons u us =>
    rw [putIn] at h
    split at h
    · cases h; exact ⟨_, rfl⟩
    · obtain ⟨r0, h1, -⟩ := H.uncons h ht.stays
      exact ⟨r0, h1⟩

theorem SimpleG.putIn_back (H : ReplacesFirmly σ) {ts : List Token} {node : Node} (h : SimpleG [] (Lol.putIn σ ts) node) :
    ∃ node0, SimpleG [] ts node0 := by
  cases ts with
  | nil => exact ⟨node, h⟩
  | cons t r =>
    rw [Lol.putIn] at h
    split at h
    · exact ⟨node, h⟩
    · exact h.back H rfl

theorem ParamsG.stays {ts : List Token} {is : List Identifier} (h : ParamsG ts is) : ∀ x ∈ ts, x.Stays := by
  induction h with
  | nil => simp
  | one h1 h2 =>
    intro x hx
    rcases List.mem_cons.1 hx with rfl | hx
    · exact h1.stays
    · exact h2.stays x hx
  | cons h1 h2 h3 _ ih =>
    intro x hx
    simp only [List.mem_cons, List.mem_append] at hx
    rcases hx with rfl | hx | rfl | hx
    · exact h1.stays
    · exact h2.stays x hx
    · exact h3.stays
    · exact ih x hx

theorem IterationG.stays {ops : List Token} {op : Option LoopIterationOperation} (h : IterationG ops op) :
    ∀ x ∈ ops, x.Stays := by
  cases h with
  | none => simp
  | @some op yr v h1 h2 h3 =>
    intro x hx
    simp only [List.mem_cons] at hx
    rcases hx with rfl | rfl | hx
    · exact h1.stays (by cases op <;> rfl)
    · exact h2.stays
    · exact h3.stays x hx

theorem ConditionG.back (H : ReplacesFirmly σ) {ts conds : List Token} {cond : Option LoopCondition}
    (h : ConditionG conds cond) (hs : putInTokens σ ts = conds) : ∃ cond0, ConditionG ts cond0 := by
  cases h with
  | none => rw [putInTokens_nil_iff.1 hs]; exact ⟨_, .none⟩
  | til h1 h2 =>
    obtain ⟨r, rfl, g1⟩ := H.uncons hs h1.stays
    obtain ⟨e0, rfl, g2, -⟩ := H.last h2 g1
    exact ⟨_, .til h1 g2⟩
  | wile h1 h2 =>
    obtain ⟨r, rfl, g1⟩ := H.uncons hs h1.stays
    obtain ⟨e0, rfl, g2, -⟩ := H.last h2 g1
    exact ⟨_, .wile h1 g2⟩

/-! ## Programs -/

theorem map_singleton_eq {α β : Type} {f : α → β} {L : List α} {b : β} (h : L.map f = [b]) : ∃ a, L = [a] ∧ f a = b := by
  obtain ⟨a, l, rfl, h1, h2⟩ := List.map_eq_cons_iff.1 h
  obtain rfl := List.map_eq_nil_iff.1 h2
  exact ⟨a, rfl, h1⟩

mutual

theorem NodeG.back (H : ReplacesFirmly σ) : {L' : List (List Token)} → {node : Node} → NodeG L' node →
    (L : List (List Token)) → L.map (putIn σ) = L' → ∃ node0, NodeG L node0
  | _, _, .simple h, L, hL => by
    obtain ⟨ts, rfl, rfl⟩ := map_singleton_eq hL
    obtain ⟨n, hn⟩ := h.putIn_back H
    exact ⟨n, .simple hn⟩
  | _, _, .hai h, L, hL => by
    obtain ⟨ts, L, rfl, h1, h2⟩ := List.map_eq_cons_iff.1 hL
    obtain ⟨ts', rfl, h3⟩ := map_singleton_eq h2
    obtain rfl := putIn_nil_iff.1 h3
    obtain ⟨r, rfl⟩ := H.haiStart h1 h
    exact ⟨_, .hai h⟩
  | _, _, .loop h1 h2 h3 h4 h5 h6 h7, L, hL => by
    obtain ⟨ts, L, rfl, g1, hL1⟩ := List.map_eq_cons_iff.1 hL
    obtain ⟨body, L, rfl, g2, hL2⟩ := List.map_eq_append_iff.1 hL1
    obtain ⟨ts', rfl, g3⟩ := map_singleton_eq hL2
    obtain ⟨r, rfl, g4⟩ := H.start g1 h1
    obtain ⟨r, rfl, g5⟩ := H.uncons g4 h2.stays
    obtain ⟨r, rfl, g6⟩ := H.unprefix h3.stays g5
    obtain ⟨cond0, g7⟩ := h4.back H g6
    obtain ⟨r, rfl, g8⟩ := H.start g3 h6
    obtain rfl := H.exactly (by simpa using h7.stays) g8
    obtain ⟨ns, g9⟩ := BlockG.back H h5 body g2
    exact ⟨_, .loop h1 h2 h3 g7 g9 h6 h7⟩
  | _, _, .function h1 h2 h3 h4 h5, L, hL => by
    obtain ⟨ts, L, rfl, g1, hL1⟩ := List.map_eq_cons_iff.1 hL
    obtain ⟨body, L, rfl, g2, hL2⟩ := List.map_eq_append_iff.1 hL1
    obtain ⟨ts', L, rfl, g3, hL3⟩ := List.map_eq_cons_iff.1 hL2
    obtain ⟨ts'', rfl, g4⟩ := map_singleton_eq hL3
    obtain rfl := putIn_nil_iff.1 g4
    obtain ⟨r, rfl, g5⟩ := H.start g1 h1
    obtain ⟨r, rfl, g6⟩ := H.unprefix h2.stays g5
    obtain rfl := H.exactly h3.stays g6
    obtain ⟨r, rfl, g7⟩ := H.start g3 h5
    obtain rfl := putInTokens_nil_iff.1 g7
    obtain ⟨ns, g8⟩ := BlockG.back H h4 body g2
    exact ⟨_, .function h1 h2 h3 g8 h5⟩
  | _, _, .switch h1 h2 h3 h4 h5, L, hL => by
    obtain ⟨ts, L, rfl, g1, hL1⟩ := List.map_eq_cons_iff.1 hL
    obtain ⟨cases', L, rfl, g2, hL2⟩ := List.map_eq_append_iff.1 hL1
    obtain ⟨dflt, L, rfl, g3, hL3⟩ := List.map_eq_append_iff.1 hL2
    obtain ⟨ts', L, rfl, g4, hL4⟩ := List.map_eq_cons_iff.1 hL3
    obtain ⟨ts'', rfl, g5⟩ := map_singleton_eq hL4
    obtain rfl := putIn_nil_iff.1 g5
    obtain ⟨r, rfl, g6⟩ := H.start g1 h1
    obtain rfl := H.exactly (by simpa using h2.stays) g6
    obtain ⟨r, rfl, g7⟩ := H.start g4 h5
    obtain rfl := putInTokens_nil_iff.1 g7
    obtain ⟨_, g8⟩ := OmgsG.back H h3 cases' g2
    obtain ⟨_, g9⟩ := OmgWtfG.back H h4 dflt g3
    exact ⟨_, .switch h1 h2 g8 g9 h5⟩
  | _, _, .conditional h1 h2 h3 h4 h5 h6, L, hL => by
    obtain ⟨ts, L, rfl, g1, hL1⟩ := List.map_eq_cons_iff.1 hL
    obtain ⟨yes, L, rfl, g2, hL2⟩ := List.map_eq_append_iff.1 hL1
    obtain ⟨maybe, L, rfl, g3, hL3⟩ := List.map_eq_append_iff.1 hL2
    obtain ⟨no, L, rfl, g4, hL4⟩ := List.map_eq_append_iff.1 hL3
    obtain ⟨ts', rfl, g5⟩ := map_singleton_eq hL4
    obtain ⟨r, rfl, g6⟩ := H.start g1 h1
    obtain rfl := H.exactly (by simpa using h2.stays) g6
    obtain ⟨r, rfl, g7⟩ := H.start g5 h6
    obtain rfl := putInTokens_nil_iff.1 g7
    obtain ⟨_, g8⟩ := YaRlyG.back H h3 yes g2
    obtain ⟨_, g9⟩ := MebbesG.back H h4 maybe g3
    obtain ⟨_, g10⟩ := NoWaiG.back H h5 no g4
    exact ⟨_, .conditional h1 h2 g8 g9 g10 h6⟩

theorem OmgsG.back (H : ReplacesFirmly σ) : {L' : List (List Token)} → {omgs : List WtfOmg} → OmgsG L' omgs →
    (L : List (List Token)) → L.map (putIn σ) = L' → ∃ omgs0, OmgsG L omgs0
  | _, _, .nil, L, hL => by
    obtain rfl := List.map_eq_nil_iff.1 hL
    exact ⟨_, .nil⟩
  | _, _, .cons h1 h2 h3 h4, L, hL => by
    obtain ⟨ts, L, rfl, g1, hL1⟩ := List.map_eq_cons_iff.1 hL
    obtain ⟨body, L, rfl, g2, hL2⟩ := List.map_eq_append_iff.1 hL1
    obtain ⟨r, rfl, g3⟩ := H.start g1 h1
    obtain ⟨e0, rfl, g4, -⟩ := H.last h2 g3
    obtain ⟨_, g5⟩ := BlockG.back H h3 body g2
    obtain ⟨_, g6⟩ := OmgsG.back H h4 L hL2
    exact ⟨_, .cons h1 g4 g5 g6⟩

theorem OmgWtfG.back (H : ReplacesFirmly σ) : {L' : List (List Token)} → {o : Option WtfOmgWtf} → OmgWtfG L' o →
    (L : List (List Token)) → L.map (putIn σ) = L' → ∃ o0, OmgWtfG L o0
  | _, _, .none, L, hL => by
    obtain rfl := List.map_eq_nil_iff.1 hL
    exact ⟨_, .none⟩
  | _, _, .some h1 h2, L, hL => by
    obtain ⟨ts, L, rfl, g1, hL1⟩ := List.map_eq_cons_iff.1 hL
    obtain ⟨r, rfl, g2⟩ := H.start g1 h1
    obtain rfl := putInTokens_nil_iff.1 g2
    obtain ⟨_, g3⟩ := BlockG.back H h2 L hL1
    exact ⟨_, .some h1 g3⟩

theorem YaRlyG.back (H : ReplacesFirmly σ) : {L' : List (List Token)} → {o : Option YaRly} → YaRlyG L' o →
    (L : List (List Token)) → L.map (putIn σ) = L' → ∃ o0, YaRlyG L o0
  | _, _, .none, L, hL => by
    obtain rfl := List.map_eq_nil_iff.1 hL
    exact ⟨_, .none⟩
  | _, _, .some h1 h2, L, hL => by
    obtain ⟨ts, L, rfl, g1, hL1⟩ := List.map_eq_cons_iff.1 hL
    obtain ⟨r, rfl, g2⟩ := H.start g1 h1
    obtain rfl := putInTokens_nil_iff.1 g2
    obtain ⟨_, g3⟩ := BlockG.back H h2 L hL1
    exact ⟨_, .some h1 g3⟩

theorem MebbesG.back (H : ReplacesFirmly σ) : {L' : List (List Token)} → {ms : List Mebbe} → MebbesG L' ms →
    (L : List (List Token)) → L.map (putIn σ) = L' → ∃ ms0, MebbesG L ms0
  | _, _, .nil, L, hL => by
    obtain rfl := List.map_eq_nil_iff.1 hL
    exact ⟨_, .nil⟩
  | _, _, .cons h1 h2 h3 h4, L, hL => by
    obtain ⟨ts, L, rfl, g1, hL1⟩ := List.map_eq_cons_iff.1 hL
    obtain ⟨body, L, rfl, g2, hL2⟩ := List.map_eq_append_iff.1 hL1
    obtain ⟨r, rfl, g3⟩ := H.start g1 h1
    obtain ⟨e0, rfl, g4, -⟩ := H.last h2 g3
    obtain ⟨_, g5⟩ := BlockG.back H h3 body g2
    obtain ⟨_, g6⟩ := MebbesG.back H h4 L hL2
    exact ⟨_, .cons h1 g4 g5 g6⟩

theorem NoWaiG.back (H : ReplacesFirmly σ) : {L' : List (List Token)} → {o : Option NoWai} → NoWaiG L' o →
    (L : List (List Token)) → L.map (putIn σ) = L' → ∃ o0, NoWaiG L o0
  | _, _, .none, L, hL => by
    obtain rfl := List.map_eq_nil_iff.1 hL
    exact ⟨_, .none⟩
  | _, _, .some h1 h2, L, hL => by
    obtain ⟨ts, L, rfl, g1, hL1⟩ := List.map_eq_cons_iff.1 hL
    obtain ⟨r, rfl, g2⟩ := H.start g1 h1
    obtain rfl := putInTokens_nil_iff.1 g2
    obtain ⟨_, g3⟩ := BlockG.back H h2 L hL1
    exact ⟨_, .some h1 g3⟩

theorem BlockG.back (H : ReplacesFirmly σ) : {L' : List (List Token)} → {nodes : List Node} → BlockG L' nodes →
    (L : List (List Token)) → L.map (putIn σ) = L' → ∃ nodes0, BlockG L nodes0
  | _, _, .nodes h1 h2, L, hL => by
    obtain ⟨a, b, rfl, g1, g2⟩ := List.map_eq_append_iff.1 hL
    obtain ⟨_, g3⟩ := NodeG.back H h1 a g1
    obtain ⟨_, g4⟩ := NodesG.back H h2 b g2
    exact ⟨_, .nodes g3 g4⟩
  | _, _, .skip h, L, hL => by
    obtain ⟨ts, L, rfl, g1, hL1⟩ := List.map_eq_cons_iff.1 hL
    obtain rfl := putIn_nil_iff.1 g1
    obtain ⟨_, g3⟩ := NodesG.back H h L hL1
    exact ⟨_, .skip g3⟩

theorem NodesG.back (H : ReplacesFirmly σ) : {L' : List (List Token)} → {nodes : List Node} → NodesG L' nodes →
    (L : List (List Token)) → L.map (putIn σ) = L' → ∃ nodes0, NodesG L nodes0
  | _, _, .nil, L, hL => by
    obtain rfl := List.map_eq_nil_iff.1 hL
    exact ⟨_, .nil⟩
  | _, _, .cons h1 h2, L, hL => by
    obtain ⟨a, b, rfl, g1, g2⟩ := List.map_eq_append_iff.1 hL
    obtain ⟨_, g3⟩ := NodeG.back H h1 a g1
    obtain ⟨_, g4⟩ := NodesG.back H h2 b g2
    exact ⟨_, .cons g3 g4⟩

end

end Lol
