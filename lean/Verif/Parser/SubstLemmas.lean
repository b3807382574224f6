import Verif.Parser.SubstSpec
import Verif.Parser.RetouchLemmas

/-! # Expressions put in place of literals: lemmas -/

namespace Lol

variable {σ : Token → Option Expr}

theorem putInTokens_append (a b : List Token) : putInTokens σ (a ++ b) = putInTokens σ a ++ putInTokens σ b :=
  List.flatMap_append

theorem Replaces.none (H : Replaces σ) {t : Token} (h : ∀ v, t.tokenType ≠ .value v) : σ t = none := by
  cases hs : σ t with
  | none => rfl
  | some e =>
    obtain ⟨⟨v, hv⟩, -⟩ := H t e hs
    exact absurd hv (h v)

theorem putInTokens_cons (H : Replaces σ) {t : Token} (h : ∀ v, t.tokenType ≠ .value v) (r : List Token) :
    putInTokens σ (t :: r) = t :: putInTokens σ r := by
  rw [putInTokens, List.flatMap_cons, H.none h]
  rfl

theorem putInTokens_all (H : Replaces σ) : {a : List Token} → (∀ t ∈ a, ∀ v, t.tokenType ≠ .value v) →
    putInTokens σ a = a
  | [], _ => rfl
  | t :: a, h => by
    rw [putInTokens_cons H (h t (by simp)), putInTokens_all H fun t ht => h t (by simp [ht])]

theorem putInTokens_option (H : Replaces σ) {an : Option Token} (h : ∀ t ∈ an, ∀ v, t.tokenType ≠ .value v) :
    putInTokens σ an.toList = an.toList := putInTokens_all H fun t ht => h t (by simpa using ht)

theorem Expr.putIn_open (H : Replaces σ) : (e : Expr) → ((e.putIn σ).Open ↔ e.Open)
  | .value (.variableAccess _) => Iff.rfl
  | .value (.literal t) => by
    rw [Expr.putIn]
    cases hs : σ t with
    | none => exact Iff.rfl
    | some e =>
      simp only [Option.getD_some, Expr.Open, iff_false]
      exact (H t e hs).2.2.1
  | .unary _ e => by rw [Expr.putIn, Expr.Open, Expr.Open]; exact Expr.putIn_open H e
  | .binary _ _ _ r => by rw [Expr.putIn, Expr.Open, Expr.Open]; exact Expr.putIn_open H r
  | .nary _ _ _ => Iff.rfl

theorem Expr.putIn_noob (H : Replaces σ) {e : Expr} (h : (e.putIn σ).IsNoob) : e.IsNoob := by
  match e with
  | .value (.variableAccess _) => exact h
  | .value (.literal t) =>
    rw [Expr.putIn] at h
    cases hs : σ t with
    | none => rw [hs] at h; exact h
    | some e => rw [hs] at h; exact absurd h (H t e hs).2.2.2
  | .unary _ e => obtain ⟨t, h, -⟩ := h; rw [Expr.putIn] at h; cases h
  | .binary _ _ _ r => obtain ⟨t, h, -⟩ := h; rw [Expr.putIn] at h; cases h
  | .nary _ _ _ => obtain ⟨t, h, -⟩ := h; rw [Expr.putIn] at h; cases h

mutual

theorem Expr.putIn_spec (H : Replaces σ) : (e : Expr) → e.WF →
    (e.putIn σ).WF ∧ putInTokens σ e.toks = (e.putIn σ).toks
  | .value (.variableAccess v), h => by
    refine ⟨h, ?_⟩
    rw [Expr.WF] at h
    rw [Expr.putIn, Expr.toks, ExprValue.toks]
    exact putInTokens_all H h.not_value
  | .value (.literal t), h => by
    rw [Expr.putIn, Expr.toks, ExprValue.toks, putInTokens, List.flatMap_singleton]
    cases hs : σ t with
    | none => exact ⟨h, rfl⟩
    | some e => exact ⟨(H t e hs).2.1, rfl⟩
  | .unary op e, h => by
    rw [Expr.WF] at h
    obtain ⟨h1, h2⟩ := Expr.putIn_spec H e h.2
    rw [Expr.putIn, Expr.WF, Expr.toks, Expr.toks, putInTokens_cons H h.1.not_value, h2]
    exact ⟨⟨h.1, h1⟩, rfl⟩
  | .binary op l an r, h => by
    rw [Expr.WF] at h
    obtain ⟨h1, h2⟩ := Expr.putIn_spec H l h.2.1
    obtain ⟨h3, h4⟩ := Expr.putIn_spec H r h.2.2.2.2
    rw [Expr.putIn, Expr.WF, Expr.toks, Expr.toks, putInTokens_cons H h.1.not_value, putInTokens_append,
      putInTokens_append, putInTokens_option H (fun t ht => (h.2.2.2.1 t ht).not_value), h2, h4]
    exact ⟨⟨h.1, h1, fun ho => h.2.2.1 ((l.putIn_open H).1 ho), h.2.2.2.1, h3⟩, rfl⟩
  | .nary op es mkay, h => by
    rw [Expr.WF] at h
    obtain ⟨h1, h2⟩ := putInOperands_spec H es _ h.2.1
    rw [Expr.putIn, Expr.WF, Expr.toks, Expr.toks, putInTokens_cons H h.1.not_value, putInTokens_append,
      putInTokens_option H (fun t ht => (h.2.2 t ht).not_value), h2]
    exact ⟨⟨h.1, h1, h.2.2⟩, rfl⟩

theorem putInOperands_spec (H : Replaces σ) : (es : List Operand) → (closed : Bool) → wfOperands es closed →
    wfOperands (putInOperands σ es) closed ∧ putInTokens σ (toksOperands es) = toksOperands (putInOperands σ es)
  | [], _, _ => ⟨trivial, rfl⟩
  | .mk e an :: es, closed, h => by
    rw [wfOperands] at h
    obtain ⟨h1, h2⟩ := Expr.putIn_spec H e h.1
    obtain ⟨h3, h4⟩ := putInOperands_spec H es closed h.2.2.2
    rw [putInOperands, wfOperands, toksOperands, toksOperands, putInTokens_append, putInTokens_append,
      putInTokens_option H (fun t ht => (h.2.1 t ht).not_value), h2, h4]
    refine ⟨⟨h1, h.2.1, fun ho => ?_, h3⟩, rfl⟩
    obtain ⟨rfl, rfl, h5⟩ := h.2.2.1 ((e.putIn_open H).1 ho)
    exact ⟨rfl, rfl, h5⟩

end

theorem Expr.putIn_follow (H : Replaces σ) {e : Expr} {rest : List Token} (h : e.Follow rest) (hr : NoSlot rest) :
    (e.putIn σ).Follow rest := ⟨fun ho => h.1 ((e.putIn_open H).1 ho), fun _ => hr⟩

theorem ArgsG.putIn (H : Replaces σ) {rest : List Token} (hr : NoSlot rest) {ts : List Token} {es : List Expr}
    (h : ArgsG rest ts es) : ArgsG rest (putInTokens σ ts) (es.map (Expr.putIn σ)) := by
  induction h with
  | nil => exact .nil
  | @one yr e h1 h2 h3 =>
    obtain ⟨g1, g2⟩ := Expr.putIn_spec H e h2
    rw [putInTokens_cons H h1.not_value, g2]
    exact .one h1 g1 (Expr.putIn_follow H h3 hr)
  | @cons yr e an ts es h1 h2 h3 h4 h5 ih =>
    obtain ⟨g1, g2⟩ := Expr.putIn_spec H e h2
    rw [putInTokens_cons H h1.not_value, putInTokens_append, putInTokens_cons H h4.not_value, g2]
    exact .cons h1 g1 (fun ho => h3 ((e.putIn_open H).1 ho)) h4 ih

theorem ParamsG.not_value {ts : List Token} {is : List Identifier} (h : ParamsG ts is) :
    ∀ x ∈ ts, ∀ v, x.tokenType ≠ .value v := by
  induction h with
  | nil => simp
  | one h1 h2 =>
    intro x hx
    rcases List.mem_cons.1 hx with rfl | hx
    · exact h1.not_value
    · exact h2.not_value x hx
  | cons h1 h2 h3 _ ih =>
    intro x hx
    simp only [List.mem_cons, List.mem_append] at hx
    rcases hx with rfl | hx | rfl | hx
    · exact h1.not_value
    · exact h2.not_value x hx
    · exact h3.not_value
    · exact ih x hx

theorem FollowAll.putIn (H : Replaces σ) {rest : List Token} (hr : NoSlot rest) : (es : List Expr) →
    FollowAll es rest → FollowAll (es.map (Expr.putIn σ)) rest ∧
      putInTokens σ (es.flatMap Expr.toks) = (es.map (Expr.putIn σ)).flatMap Expr.toks
  | [], _ => ⟨trivial, rfl⟩
  | e :: es, h => by
    rw [FollowAll] at h
    obtain ⟨ih1, ih2⟩ := FollowAll.putIn H hr es h.2.2
    obtain ⟨g1, g2⟩ := Expr.putIn_spec H e h.1
    have hno : NoSlot ((es.map (Expr.putIn σ)).flatMap Expr.toks ++ rest) := by
      cases es with
      | nil => exact hr
      | cons e' es =>
        have h4 := h.2.2
        rw [FollowAll] at h4
        simp only [List.map_cons, List.flatMap_cons, List.append_assoc]
        exact (Expr.putIn_spec H e' h4.1).1.noSlot _
    constructor
    · rw [List.map_cons, FollowAll]
      refine ⟨g1, ⟨fun ho => ?_, fun _ => hno⟩, ih1⟩
      have h5 := h.2.1.1 ((e.putIn_open H).1 ho)
      cases es with
      | nil => exact h5
      | cons e' es =>
        obtain ⟨t, ts, ht⟩ := e'.toks_ne
        simp [ht] at h5
    · rw [List.flatMap_cons, putInTokens_append, g2, ih2]
      simp

theorem putIn_cons (H : Replaces σ) {t : Token} (h1 : ∀ v, t.tokenType ≠ .value v) (h2 : ¬ t.Is .HAI)
    (r : List Token) : putIn σ (t :: r) = t :: putInTokens σ r := by
  rw [putIn, if_neg h2, putInTokens_cons H h1]

theorem putIn_eq {st : List Token} (h : ∀ t r, st = t :: r → ¬ t.Is .HAI) : putIn σ st = putInTokens σ st := by
  cases st with
  | nil => rfl
  | cons t r => rw [putIn, if_neg (h t r rfl)]

theorem putIn_access (H : Replaces σ) {v : VariableAccess} (h : v.WF) (r : List Token) :
    putIn σ (v.toks ++ r) = v.toks ++ putInTokens σ r := by
  rw [putIn_eq, putInTokens_append, putInTokens_all H h.not_value]
  intro t r' ht
  obtain ⟨u, us, hu⟩ := v.toks_head
  rw [hu, List.cons_append, List.cons.injEq] at ht
  rw [← ht.1]
  exact h.not_is (by decide) u (by rw [hu]; simp)

theorem SimpleG.putIn (H : Replaces σ) {ts : List Token} {node : Node} (h : SimpleG [] ts node) :
    SimpleG [] (Lol.putIn σ ts) (node.retouch (withExpressions σ)) := by
  cases h with
  | declaration h1 h2 h3 =>
    rw [putIn_cons H h1.not_value h1.ne, putInTokens_all H h2.not_value]
    exact .declaration h1 h2 h3
  | @declarationType t i itz ty h1 h2 h3 h4 =>
    rw [putIn_cons H h1.not_value h1.ne, putInTokens_append, putInTokens_all H h2.not_value,
      putInTokens_cons H h3.not_value, putInTokens_cons H h4.not_value]
    exact .declarationType h1 h2 h3 h4
  | @declarationExpr t i itz e h1 h2 h3 h4 h5 h6 =>
    obtain ⟨g1, g2⟩ := Expr.putIn_spec H e h4
    rw [putIn_cons H h1.not_value h1.ne, putInTokens_append, putInTokens_all H h2.not_value,
      putInTokens_cons H h3.not_value, g2]
    exact .declarationExpr h1 h2 h3 g1 .nil (fun hn => h6 (Expr.putIn_noob H hn))
  | @assignment v r e h1 h2 h3 h4 =>
    obtain ⟨g1, g2⟩ := Expr.putIn_spec H e h3
    rw [putIn_access H h1, putInTokens_cons H h2.not_value, g2]
    exact .assignment h1 h2 g1 .nil
  | @setSlot v g i itz e h1 h2 h3 h4 h5 h6 =>
    obtain ⟨g1, g2⟩ := Expr.putIn_spec H e h5
    rw [putIn_access H h1, putInTokens_cons H h2.not_value, putInTokens_append, putInTokens_all H h3.not_value,
      putInTokens_cons H h4.not_value, g2]
    exact .setSlot h1 h2 h3 h4 g1 .nil
  | @access v h1 h2 =>
    have := putIn_access H h1 []
    rw [List.append_nil] at this
    rw [this, show putInTokens σ [] = [] from rfl, List.append_nil]
    exact .access h1 h2
  | @expression e h1 h2 h3 =>
    obtain ⟨g1, g2⟩ := Expr.putIn_spec H e h1
    rw [putIn_eq (fun t r ht => (Expr.head_not h1 ht).2), g2]
    show SimpleG [] (e.putIn σ).toks (.expression (e.putIn σ))
    generalize e.putIn σ = e' at g1 ⊢
    match e', g1 with
    | .value (.variableAccess v), g1 =>
      rw [Expr.WF] at g1
      exact .access g1 rfl
    | .value (.literal t), g1 => exact .expression g1 .nil (by intro v; simp)
    | .unary _ _, g1 => exact .expression g1 .nil (by intro v; simp)
    | .binary _ _ _ _, g1 => exact .expression g1 .nil (by intro v; simp)
    | .nary _ _ _, g1 => exact .expression g1 .nil (by intro v; simp)
  | @visible t es ex h1 h2 h3 h4 =>
    rw [List.append_nil] at h2
    have hr : NoSlot ex.toList := by
      cases ex with
      | none => exact NoSlot.nil
      | some x => exact NoSlot.cons_iff.2 (by rw [h3 x rfl]; simp)
    obtain ⟨e1, e2⟩ := FollowAll.putIn H hr es h2
    rw [putIn_cons H h1.not_value h1.ne, putInTokens_append, e2,
      putInTokens_option H (fun x hx v => by rw [h3 x hx]; simp)]
    exact .visible h1 (by rw [List.append_nil]; exact e1) h3 h4
  | gimmeh h1 h2 h3 =>
    rw [putIn_cons H h1.not_value h1.ne, putInTokens_all H h2.not_value]
    exact .gimmeh h1 h2 h3
  | @foundYr t e h1 h2 h3 =>
    obtain ⟨g1, g2⟩ := Expr.putIn_spec H e h2
    rw [putIn_cons H h1.not_value h1.ne, g2]
    exact .foundYr h1 g1 .nil
  | @call t v ts es mkay h1 h2 h3 h4 =>
    have := ArgsG.putIn H (NoSlot.keyword h4) h3
    rw [putIn_cons H h1.not_value h1.ne, putInTokens_append, putInTokens_append, putInTokens_all H h2.not_value,
      putInTokens_cons H h4.not_value]
    exact .call h1 h2 this h4
  | gtfo h1 => rw [putIn_cons H h1.not_value h1.ne]; exact .gtfo h1
  | kThxBye h1 => rw [putIn_cons H h1.not_value h1.ne]; exact .kThxBye h1

theorem fits_putIn (H : Replaces σ) : Fits (putIn σ) (withExpressions σ) where
  simple := SimpleG.putIn H
  hai h := by rw [putIn, if_pos h]; rfl
  loop := by
    intro t label ops op conds cond h1 h2 h3 h4
    rw [putIn_cons H h1.not_value h1.ne, putInTokens_cons H h2.not_value, putInTokens_append,
      putInTokens_all H (fun x hx => (h3.other x hx).2.2)]
    refine ⟨_, rfl, ?_⟩
    cases h4 with
    | none => exact .none
    | @til t e h1 h2 =>
      obtain ⟨g1, g2⟩ := Expr.putIn_spec H e h2
      rw [putInTokens_cons H h1.not_value, g2]
      exact .til h1 g1
    | @wile t e h1 h2 =>
      obtain ⟨g1, g2⟩ := Expr.putIn_spec H e h2
      rw [putInTokens_cons H h1.not_value, g2]
      exact .wile h1 g1
  function := by
    intro t ps params i h1 h2 h3
    rw [putIn_cons H h1.not_value h1.ne, putInTokens_append, putInTokens_all H h2.not_value,
      putInTokens_all H h3.not_value]
    exact ⟨ps, rfl, h3⟩
  expr := by
    intro t e h1 h2
    obtain ⟨g1, g2⟩ := Expr.putIn_spec H e h2
    rw [putIn_cons H (by rcases h1 with h | h <;> exact h.not_value) (by rcases h1 with h | h <;> exact h.ne), g2]
    exact ⟨rfl, g1⟩
  keep := by
    intro st h
    cases st with
    | nil => rfl
    | cons t r =>
      rw [putIn]
      split
      · rfl
      · exact putInTokens_all H fun x hx => (h x hx).2.2

end Lol
