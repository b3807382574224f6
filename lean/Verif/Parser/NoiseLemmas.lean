import Verif.Parser.NoiseSpec
import Verif.Parser.PrintLemmas

/-! # Words that may be left out: lemmas -/

namespace Lol

/-! ## Keywords -/

theorem Token.Is.ne {t : Token} {k k' : Keyword} (h : t.Is k) (hk : k ≠ k' := by decide) : ¬ t.Is k' := by
  intro h'
  have h1 : t.tokenType = .keyword k := h
  have h2 : t.tokenType = .keyword k' := h'
  rw [h1] at h2
  cases h2
  exact hk rfl

theorem Token.IsIdent.not_is {t : Token} (h : t.IsIdent) (k : Keyword) : ¬ t.Is k := by
  intro h'
  obtain ⟨n, hn⟩ := h
  have h2 : t.tokenType = .keyword k := h'
  rw [hn] at h2
  cases h2

theorem not_is_of {t : Token} {ty : TokenType} (h : t.tokenType = ty) {k : Keyword} (hk : ty ≠ .keyword k) :
    ¬ t.Is k := by
  intro h'
  have h2 : t.tokenType = .keyword k := h'
  rw [h] at h2
  exact hk h2

theorem Identifier.WF.not_is {i : Identifier} (h : i.WF) {k : Keyword} (hk : .SRS ≠ k := by decide) :
    ∀ t ∈ i.toks, ¬ t.Is k := by
  intro t ht
  simp only [Identifier.toks, List.mem_append, Option.mem_toList, List.mem_singleton] at ht
  rcases ht with ht | rfl
  · exact (h.2 t ht).ne hk
  · exact h.1.not_is k

theorem VariableAccess.WF.not_is {v : VariableAccess} (h : v.WF) {k : Keyword} (hk : .SRS ≠ k := by decide) :
    ∀ t ∈ v.toks, ¬ t.Is k := by
  intro t ht
  simp only [VariableAccess.toks, List.mem_append, List.mem_flatMap] at ht
  rcases ht with ht | ⟨s, hs, ht⟩
  · exact h.1.not_is hk t ht
  · obtain ⟨h1, h2⟩ := h.2 s hs
    simp only [VariableAccessSlot.toks, List.mem_cons] at ht
    rcases ht with rfl | ht
    · exact not_is_of h1 (by simp)
    · exact h2.not_is hk t ht

theorem Token.IsLiteral.not_is {t : Token} (h : t.IsLiteral) {k : Keyword} (hk : .NOOB ≠ k := by decide) :
    ¬ t.Is k := by
  rcases h with ⟨v, hv⟩ | h
  · exact not_is_of hv (by simp)
  · exact h.ne hk

theorem ASTType.not_is (ty : ASTType) (h : ty.token.Is ty.keyword) {k : Keyword}
    (hk : ∀ ty : ASTType, ty.keyword ≠ k) : ¬ ty.token.Is k := h.ne (hk ty)

/-- A keyword that is no operator. -/
def NoOperator (k : Keyword) : Prop :=
  (∀ op : BinaryOpt, op.keyword ≠ k) ∧ (∀ op : UnaryOpt, op.keyword ≠ k) ∧ ∀ op : NaryOpt, op.keyword ≠ k

theorem noOperator_an : NoOperator .AN := by
  refine ⟨?_, ?_, ?_⟩ <;> intro op <;> cases op <;> simp [BinaryOpt.keyword, UnaryOpt.keyword, NaryOpt.keyword]

theorem noOperator_yr : NoOperator .YR := by
  refine ⟨?_, ?_, ?_⟩ <;> intro op <;> cases op <;> simp [BinaryOpt.keyword, UnaryOpt.keyword, NaryOpt.keyword]

theorem noOperator_mkay : NoOperator .MKAY := by
  refine ⟨?_, ?_, ?_⟩ <;> intro op <;> cases op <;> simp [BinaryOpt.keyword, UnaryOpt.keyword, NaryOpt.keyword]

mutual

theorem Expr.WF.no_yr : (e : Expr) → e.WF → ∀ t ∈ e.toks, ¬ t.Is .YR
  | .value (.variableAccess v), h => by
    rw [Expr.WF] at h
    rw [Expr.toks, ExprValue.toks]
    exact h.not_is
  | .value (.literal l), h => by
    rw [Expr.WF] at h
    rw [Expr.toks, ExprValue.toks]
    intro t ht
    rw [List.mem_singleton] at ht
    rw [ht]
    exact h.not_is
  | .unary op e, h => by
    rw [Expr.WF] at h
    rw [Expr.toks]
    intro t ht
    rcases List.mem_cons.1 ht with rfl | ht
    · exact h.1.ne (noOperator_yr.2.1 op)
    · exact Expr.WF.no_yr e h.2 t ht
  | .binary op l an r, h => by
    rw [Expr.WF] at h
    rw [Expr.toks]
    intro t ht
    rcases List.mem_cons.1 ht with rfl | ht
    · exact h.1.ne (noOperator_yr.1 op)
    · rcases List.mem_append.1 ht with ht | ht
      · exact Expr.WF.no_yr l h.2.1 t ht
      · rcases List.mem_append.1 ht with ht | ht
        · exact (h.2.2.2.1 t (by simpa using ht)).ne
        · exact Expr.WF.no_yr r h.2.2.2.2 t ht
  | .nary op es mkay, h => by
    rw [Expr.WF] at h
    rw [Expr.toks]
    intro t ht
    rcases List.mem_cons.1 ht with rfl | ht
    · exact h.1.ne (noOperator_yr.2.2 op)
    · rcases List.mem_append.1 ht with ht | ht
      · exact wfOperands_no_yr es _ h.2.1 t ht
      · exact (h.2.2 t (by simpa using ht)).ne

theorem wfOperands_no_yr : (es : List Operand) → (closed : Bool) → wfOperands es closed →
    ∀ t ∈ toksOperands es, ¬ t.Is .YR
  | [], _, _ => by simp [toksOperands]
  | .mk e an :: es, closed, h => by
    rw [wfOperands] at h
    rw [toksOperands]
    intro t ht
    rcases List.mem_append.1 ht with ht | ht
    · exact Expr.WF.no_yr e h.1 t ht
    · rcases List.mem_append.1 ht with ht | ht
      · exact (h.2.1 t (by simpa using ht)).ne
      · exact wfOperands_no_yr es closed h.2.2.2 t ht

end

/-! ## `AN` in a list of tokens -/

theorem not_begins_nil : ¬ BeginsWithYr [] := by rintro ⟨t, r, h, -⟩; cases h

theorem begins_cons {t : Token} {r : List Token} : BeginsWithYr (t :: r) ↔ t.Is .YR := by
  constructor
  · rintro ⟨t', r', h1, h2⟩
    cases h1
    exact h2
  · exact fun h => ⟨t, r, rfl, h⟩

theorem Expr.WF.not_begins {e : Expr} (h : e.WF) (r : List Token) : ¬ BeginsWithYr (e.toks ++ r) := by
  obtain ⟨t, ts, ht⟩ := e.toks_ne
  rw [ht, List.cons_append, begins_cons]
  exact Expr.WF.no_yr e h t (by rw [ht]; simp)

variable {p : Token → Bool}

theorem dropAn_cons {t : Token} (h : ¬ t.Is .AN) (r : List Token) : dropAn p (t :: r) = t :: dropAn p r := by
  rw [dropAn, if_neg (fun hc => h hc.1)]

theorem dropAn_keep : {a : List Token} → (∀ t ∈ a, ¬ t.Is .AN) → (b : List Token) →
    dropAn p (a ++ b) = a ++ dropAn p b
  | [], _, _ => rfl
  | t :: a, h, b => by
    rw [List.cons_append, dropAn_cons (h t (by simp)), dropAn_keep (fun t ht => h t (by simp [ht])) b,
      List.cons_append]

theorem dropAn_all {a : List Token} (h : ∀ t ∈ a, ¬ t.Is .AN) : dropAn p a = a := by
  have := dropAn_keep (p := p) h []
  simpa [dropAn] using this

theorem dropAn_option {an : Option Token} (h : ∀ t ∈ an, t.Is .AN) {r : List Token} (hr : ¬ BeginsWithYr r) :
    dropAn p (an.toList ++ r) = (an.filter (!p ·)).toList ++ dropAn p r := by
  cases an with
  | none => rfl
  | some t =>
    have ht := h t rfl
    simp only [Option.toList, List.cons_append, List.nil_append, dropAn, ht, hr, not_false_eq_true, and_true, true_and]
    cases hp : p t <;> simp [Option.filter, hp]

/-! ## `AN` in expressions -/

theorem filter_is {an : Option Token} {k : Keyword} (h : ∀ t ∈ an, t.Is k) : ∀ t ∈ an.filter (!p ·), t.Is k := by
  intro t ht
  cases an with
  | none => cases ht
  | some u =>
    simp only [Option.filter] at ht
    split at ht
    · exact h t ht
    · cases ht

theorem Expr.dropAn_open : (e : Expr) → ((e.dropAn p).Open ↔ e.Open)
  | .value _ => Iff.rfl
  | .unary _ e => by rw [Expr.dropAn, Expr.Open, Expr.Open]; exact Expr.dropAn_open e
  | .binary _ _ _ r => by rw [Expr.dropAn, Expr.Open, Expr.Open]; exact Expr.dropAn_open r
  | .nary _ _ _ => Iff.rfl

theorem Expr.dropAn_ends : (e : Expr) → ((e.dropAn p).EndsInAccess ↔ e.EndsInAccess)
  | .value _ => Iff.rfl
  | .unary _ e => by rw [Expr.dropAn, Expr.EndsInAccess, Expr.EndsInAccess]; exact Expr.dropAn_ends e
  | .binary _ _ _ r => by rw [Expr.dropAn, Expr.EndsInAccess, Expr.EndsInAccess]; exact Expr.dropAn_ends r
  | .nary _ _ _ => Iff.rfl

theorem Expr.dropAn_value {e : Expr} {v : ExprValue} (h : e.dropAn p = .value v) : e = .value v := by
  cases e with
  | value w => exact h
  | _ => simp [Expr.dropAn] at h

mutual

theorem Expr.WF.dropAn : (e : Expr) → e.WF → (e.dropAn p).WF
  | .value _, h => h
  | .unary op e, h => by
    rw [Expr.WF] at h
    rw [Expr.dropAn, Expr.WF]
    exact ⟨h.1, Expr.WF.dropAn e h.2⟩
  | .binary op l an r, h => by
    rw [Expr.WF] at h
    rw [Expr.dropAn, Expr.WF]
    exact ⟨h.1, Expr.WF.dropAn l h.2.1, fun ho => h.2.2.1 (l.dropAn_open.1 ho), filter_is h.2.2.2.1,
      Expr.WF.dropAn r h.2.2.2.2⟩
  | .nary op es mkay, h => by
    rw [Expr.WF] at h
    rw [Expr.dropAn, Expr.WF]
    exact ⟨h.1, wfOperands_dropAn es _ h.2.1, h.2.2⟩

theorem wfOperands_dropAn : (es : List Operand) → (closed : Bool) → wfOperands es closed →
    wfOperands (dropAnOperands p es) closed
  | [], _, _ => trivial
  | .mk e an :: es, closed, h => by
    rw [wfOperands] at h
    rw [dropAnOperands, wfOperands]
    refine ⟨Expr.WF.dropAn e h.1, filter_is h.2.1, fun ho => ?_, wfOperands_dropAn es closed h.2.2.2⟩
    obtain ⟨rfl, rfl, h3⟩ := h.2.2.1 (e.dropAn_open.1 ho)
    exact ⟨rfl, rfl, h3⟩

end

mutual

/-- The tokens of an expression and what follows, with `AN`s left out. -/
theorem Expr.dropAn_toks : (e : Expr) → e.WF → (rest : List Token) → (e.Open → ¬ BeginsWithYr rest) →
    Lol.dropAn p (e.toks ++ rest) = (e.dropAn p).toks ++ Lol.dropAn p rest
  | .value (.variableAccess v), h, rest, _ => by
    rw [Expr.WF] at h
    rw [Expr.dropAn, Expr.toks, ExprValue.toks]
    exact dropAn_keep h.not_is rest
  | .value (.literal l), h, rest, _ => by
    rw [Expr.WF] at h
    rw [Expr.dropAn, Expr.toks, ExprValue.toks]
    exact dropAn_keep (by simpa using h.not_is) rest
  | .unary op e, h, rest, ho => by
    rw [Expr.WF] at h
    rw [Expr.dropAn, Expr.toks, Expr.toks, List.cons_append, dropAn_cons (h.1.ne (noOperator_an.2.1 op)),
      Expr.dropAn_toks e h.2 rest ho, List.cons_append]
  | .binary op l an r, h, rest, ho => by
    rw [Expr.WF] at h
    rw [Expr.dropAn, Expr.toks, Expr.toks, List.cons_append, dropAn_cons (h.1.ne (noOperator_an.1 op)),
      List.append_assoc, Expr.dropAn_toks l h.2.1 _ (fun hl => absurd hl h.2.2.1), List.append_assoc,
      dropAn_option h.2.2.2.1 (h.2.2.2.2.not_begins _), Expr.dropAn_toks r h.2.2.2.2 rest ho]
    simp only [List.cons_append, List.append_assoc]
  | .nary op es mkay, h, rest, ho => by
    rw [Expr.WF] at h
    rw [Expr.dropAn, Expr.toks, Expr.toks, List.cons_append, dropAn_cons (h.1.ne (noOperator_an.2.2 op)),
      List.append_assoc]
    cases mkay with
    | none =>
      rw [show (none : Option Token).toList ++ rest = rest from rfl, dropAnOperands_toks es _ h.2.1 _ (ho rfl)]
      simp
    | some m =>
      have hm := h.2.2 m rfl
      rw [show (some m).toList ++ rest = m :: rest from rfl,
        dropAnOperands_toks es _ h.2.1 _ (fun hb => absurd (begins_cons.1 hb) hm.ne), dropAn_cons hm.ne]
      simp

/-- The same for operands. -/
theorem dropAnOperands_toks : (es : List Operand) → (closed : Bool) → wfOperands es closed → (rest : List Token) →
    ¬ BeginsWithYr rest →
    Lol.dropAn p (toksOperands es ++ rest) = toksOperands (dropAnOperands p es) ++ Lol.dropAn p rest
  | [], _, _, _, _ => rfl
  | .mk e an :: es, closed, h, rest, hb => by
    rw [wfOperands] at h
    have hn : ¬ BeginsWithYr (toksOperands es ++ rest) := by
      cases es with
      | nil => exact hb
      | cons o es =>
        cases o with
        | mk e' an' =>
          have h4 := h.2.2.2
          rw [wfOperands] at h4
          rw [toksOperands, List.append_assoc]
          exact h4.1.not_begins _
    have ho : e.Open → ¬ BeginsWithYr (an.toList ++ (toksOperands es ++ rest)) := by
      intro he
      obtain ⟨rfl, -, -⟩ := h.2.2.1 he
      exact hn
    rw [dropAnOperands, toksOperands, toksOperands, List.append_assoc, List.append_assoc, Expr.dropAn_toks e h.1 _ ho,
      dropAn_option h.2.1 hn, dropAnOperands_toks es closed h.2.2.2 rest hb]
    simp only [List.append_assoc]

end

theorem Expr.dropAn_end {e : Expr} (h : e.WF) : Lol.dropAn p e.toks = (e.dropAn p).toks := by
  have := Expr.dropAn_toks (p := p) e h [] (fun _ => not_begins_nil)
  simpa [Lol.dropAn] using this

/-! ## A last `MKAY` -/

/-- The tokens without a last `MKAY` chosen by `p`. -/
def cutMkay (p : Token → Bool) (ts : List Token) : List Token :=
  match ts.getLast? with
  | some m => if m.Is .MKAY ∧ p m = true then ts.dropLast else ts
  | none => ts

theorem cutMkay_concat (a : List Token) (m : Token) :
    cutMkay p (a ++ [m]) = if m.Is .MKAY ∧ p m = true then a else a ++ [m] := by
  simp [cutMkay]

/-- Tokens that do not end in `MKAY`. -/
theorem cutMkay_keep {a b : List Token} (hb : b ≠ []) (h : ∀ t ∈ b, ¬ t.Is .MKAY) : cutMkay p (a ++ b) = a ++ b := by
  obtain ⟨b', m, rfl⟩ : ∃ b' m, b = b' ++ [m] := ⟨_, _, (List.dropLast_concat_getLast hb).symm⟩
  rw [← List.append_assoc, cutMkay_concat, if_neg (fun hc => h m (by simp) hc.1)]

theorem dropMkay_keep {st : List Token} (h : ∀ t, st.getLast? = some t → ¬ t.Is .MKAY) : dropMkay p st = st := by
  cases st with
  | nil => rfl
  | cons t r =>
    rw [dropMkay]
    split
    · rename_i m hm
      rw [if_neg (fun hc => h m hm hc.1)]
    · rfl

theorem dropMkay_cons {t : Token} {r : List Token} (h1 : ¬ t.Is .I_IZ) (h2 : ¬ t.Is .HAI) :
    dropMkay p (t :: r) = cutMkay p (t :: r) := by
  rw [dropMkay, cutMkay]
  cases (t :: r).getLast? with
  | some m => simp only [h1, h2, not_false_eq_true, and_true]
  | none => rfl

theorem dropMkay_head {t : Token} {r : List Token} (h : t.Is .I_IZ ∨ t.Is .HAI) : dropMkay p (t :: r) = t :: r := by
  rw [dropMkay]
  split
  · rw [if_neg (fun hc => by rcases h with h | h <;> simp [h] at hc)]
  · rfl

theorem Expr.dropMkay_value {e : Expr} {v : ExprValue} (h : e.dropMkay p = .value v) : e = .value v := by
  cases e with
  | value w => exact h
  | nary op es mkay => cases mkay <;> simp [Expr.dropMkay] at h
  | _ => simp [Expr.dropMkay] at h

theorem wfOperands_open : (es : List Operand) → wfOperands es true → wfOperands es false
  | [], _ => trivial
  | .mk e an :: es, h => by
    rw [wfOperands] at h ⊢
    exact ⟨h.1, h.2.1, fun ho => by simpa using (h.2.2.1 ho).2.2, wfOperands_open es h.2.2.2⟩

mutual

/-- An expression without the `MKAY` at its end. -/
theorem Expr.dropMkay_spec : (e : Expr) → e.WF → (e.dropMkay p).WF ∧
    ∀ a, cutMkay p (a ++ e.toks) = a ++ (e.dropMkay p).toks
  | .value (.variableAccess v), h => by
    refine ⟨h, fun a => ?_⟩
    rw [Expr.WF] at h
    rw [Expr.dropMkay, Expr.toks, ExprValue.toks]
    refine cutMkay_keep ?_ h.not_is
    simp [VariableAccess.toks, Identifier.toks]
  | .value (.literal l), h => by
    refine ⟨h, fun a => ?_⟩
    rw [Expr.WF] at h
    rw [Expr.dropMkay, Expr.toks, ExprValue.toks]
    exact cutMkay_keep (by simp) (by simpa using h.not_is)
  | .unary op e, h => by
    rw [Expr.WF] at h
    obtain ⟨h1, h2⟩ := Expr.dropMkay_spec e h.2
    refine ⟨by rw [Expr.dropMkay, Expr.WF]; exact ⟨h.1, h1⟩, fun a => ?_⟩
    have := h2 (a ++ [op.token])
    rw [Expr.dropMkay, Expr.toks, Expr.toks]
    simpa using this
  | .binary op l an r, h => by
    rw [Expr.WF] at h
    obtain ⟨h1, h2⟩ := Expr.dropMkay_spec r h.2.2.2.2
    refine ⟨by rw [Expr.dropMkay, Expr.WF]; exact ⟨h.1, h.2.1, h.2.2.1, h.2.2.2.1, h1⟩, fun a => ?_⟩
    have := h2 (a ++ (op.token :: (l.toks ++ an.toList)))
    rw [Expr.dropMkay, Expr.toks, Expr.toks]
    simpa using this
  | .nary op es (some m), h => by
    rw [Expr.WF] at h
    have hm := h.2.2 m rfl
    constructor
    · rw [Expr.dropMkay, Expr.WF]
      refine ⟨h.1, ?_, ?_⟩
      · split
        · exact wfOperands_open es h.2.1
        · exact h.2.1
      · split
        · simp
        · exact h.2.2
    · intro a
      have := cutMkay_concat (p := p) (a ++ op.token :: toksOperands es) m
      rw [Expr.dropMkay, Expr.toks, Expr.toks]
      simp only [hm, true_and, List.append_assoc, List.cons_append] at this
      simp only [Option.toList]
      rw [this]
      split <;> simp
  | .nary op es none, h => by
    rw [Expr.WF] at h
    obtain ⟨h1, h2⟩ := dropMkayOperands_spec es h.2.1
    constructor
    · rw [Expr.dropMkay, Expr.WF]
      exact ⟨h.1, h1, by simp⟩
    · intro a
      rw [Expr.dropMkay, Expr.toks, Expr.toks]
      cases es with
      | nil =>
        refine cutMkay_keep (by simp) ?_
        simp only [toksOperands, Option.toList, List.append_nil, List.mem_singleton, forall_eq]
        exact h.1.ne (noOperator_mkay.2.2 op)
      | cons o es =>
        have := h2 (by simp) (a ++ [op.token])
        simpa using this

/-- The same for operands without `MKAY` after them. -/
theorem dropMkayOperands_spec : (es : List Operand) → wfOperands es false →
    wfOperands (dropMkayOperands p es) false ∧
    (es ≠ [] → ∀ a, cutMkay p (a ++ toksOperands es) = a ++ toksOperands (dropMkayOperands p es))
  | [], _ => ⟨trivial, fun h => absurd rfl h⟩
  | [.mk e none], h => by
    rw [wfOperands] at h
    obtain ⟨h1, h2⟩ := Expr.dropMkay_spec e h.1
    rw [dropMkayOperands]
    refine ⟨by rw [wfOperands]; exact ⟨h1, by simp, fun _ => ⟨rfl, rfl, rfl⟩, trivial⟩, fun _ a => ?_⟩
    simpa [toksOperands] using h2 a
  | [.mk e (some an)], h => by
    rw [dropMkayOperands]
    refine ⟨h, fun _ a => ?_⟩
    rw [wfOperands] at h
    have := cutMkay_concat (p := p) (a ++ e.toks) an
    rw [if_neg (fun hc => absurd hc.1 (h.2.1 an rfl).ne)] at this
    simpa [toksOperands] using this
  | .mk e an :: o' :: es, h => by
    rw [wfOperands] at h
    obtain ⟨h1, h2⟩ := dropMkayOperands_spec (o' :: es) h.2.2.2
    rw [dropMkayOperands]
    refine ⟨by rw [wfOperands]; exact ⟨h.1, h.2.1, fun ho => by simpa using (h.2.2.1 ho).2.1, h1⟩, fun _ a => ?_⟩
    have := h2 (by simp) (a ++ (e.toks ++ an.toList))
    rw [toksOperands, toksOperands]
    simpa using this

end

end Lol
