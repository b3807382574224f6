import Verif.Lexer.GraftLemmas
import Verif.Props.Separators
import Verif.Props.Substitution

/-! # Helper lemmas: statements with expressions in place of literals -/

namespace Lol

/-- The tokens in place of `t`, all on its line. -/
def putAt (σ : Token → Option Expr) (t : Token) : List Token :=
  match σ t with
  | some e => e.toks.map fun u => ⟨u.tokenType, t.range⟩
  | none => [t]

/-- Neither `,` nor `...`. -/
def Token.Inner (t : Token) : Prop := t.tokenType ≠ .comma ∧ t.tokenType ≠ .ellipsis

/-- Only tokens inside of statements are replaced, by tokens inside of statements. -/
def PutsInner (σ : Token → Option Expr) : Prop := ∀ t e, σ t = some e → t.Inner ∧ ∀ u ∈ e.toks, u.Inner

/-- Add tokens in front of the current statement. -/
def Stmts.pushAll (ts : List Token) (s : Stmts) : Stmts := { s with cur := ts ++ s.cur }

theorem splitFrom_run {l : Int} {rest : List Token} : (xs : List Token) → (∀ x ∈ xs, x.Inner ∧ x.range.start.line = l) →
    splitFrom (xs ++ rest) l = (splitFrom rest l).pushAll xs
  | [], _ => rfl
  | x :: xs, h => by
    obtain ⟨⟨h1, h2⟩, h3⟩ := h x (by simp)
    rw [List.cons_append, splitFrom, if_neg h1, if_pos h3, if_neg h2, splitFrom_run xs fun y hy => h y (by simp [hy])]
    rfl

theorem putAt_cons {σ : Token → Option Expr} (hσ : PutsInner σ) {t : Token} :
    ∃ u us, putAt σ t = u :: us ∧ u.range.start.line = t.range.start.line ∧
      (t.Inner → ∀ x ∈ u :: us, x.Inner ∧ x.range.start.line = t.range.start.line) ∧
      (¬ t.Inner → putAt σ t = [t]) := by
  unfold putAt
  cases h : σ t with
  | none => exact ⟨t, [], rfl, rfl, fun hi => by simp [hi], fun _ => rfl⟩
  | some e =>
    obtain ⟨u, us, hu⟩ := e.toks_ne
    obtain ⟨h1, h2⟩ := hσ t e h
    rw [hu] at h2
    refine ⟨⟨u.tokenType, t.range⟩, us.map fun u => ⟨u.tokenType, t.range⟩, by simp [hu], rfl, fun _ x hx => ?_, fun hn => absurd h1 hn⟩
    obtain ⟨y, hy, rfl⟩ : ∃ y ∈ u :: us, (⟨y.tokenType, t.range⟩ : Token) = x := by
      rcases List.mem_cons.1 hx with rfl | hx
      · exact ⟨u, by simp, rfl⟩
      · obtain ⟨y, hy, h⟩ := List.mem_map.1 hx
        exact ⟨y, by simp [hy], h⟩
    exact ⟨h2 y hy, rfl⟩

theorem firstLine_putAt {σ : Token → Option Expr} (hσ : PutsInner σ) (ts : List Token) (l : Int) :
    firstLine (ts.flatMap (putAt σ)) l = firstLine ts l := by
  cases ts with
  | nil => rfl
  | cons t ts =>
    obtain ⟨u, us, h1, h2, -⟩ := putAt_cons hσ (t := t)
    simp [h1, firstLine, h2]

theorem putAt_types (σ : Token → Option Expr) (t : Token) :
    (putAt σ t).map (·.tokenType) = (putInTokens σ [t]).map (·.tokenType) := by
  simp only [putAt, putInTokens, List.flatMap_cons, List.flatMap_nil, List.append_nil]
  cases σ t with
  | none => rfl
  | some e => simp

theorem like_pushAll {σ : Token → Option Expr} {t : Token} {A B : Stmts}
    (h : Like A.all (B.all.map (putInTokens σ))) :
    Like (A.pushAll (putAt σ t)).all ((B.push t).all.map (putInTokens σ)) := by
  simp only [Like, Stmts.all, Stmts.pushAll, Stmts.push, List.map_cons, List.cons.injEq, List.map_append] at h ⊢
  refine ⟨?_, h.2⟩
  rw [putAt_types, h.1, ← List.map_append]
  simp [putInTokens]

theorem split_putAt {σ : Token → Option Expr} (hσ : PutsInner σ) : (ts : List Token) →
    (∀ l, Like (splitFrom (ts.flatMap (putAt σ)) l).all ((splitFrom ts l).all.map (putInTokens σ))) ∧
      Like (splitGap (ts.flatMap (putAt σ))) ((splitGap ts).map (putInTokens σ))
  | [] => ⟨fun _ => rfl, rfl⟩
  | t :: ts => by
    obtain ⟨ih1, ih2⟩ := split_putAt hσ ts
    have hnil : ∀ {L M : List (List Token)}, Like L (M.map (putInTokens σ)) →
        Like (Stmts.all ⟨[], L⟩) ((Stmts.all ⟨[], M⟩).map (putInTokens σ)) := fun h => like_nil h
    obtain ⟨u, us, h1, h2, h3, h4⟩ := putAt_cons hσ (t := t)
    rw [List.flatMap_cons]
    by_cases hi : t.Inner
    · have h5 := h3 hi
      obtain ⟨hc, he⟩ := hi
      obtain ⟨⟨hc', he'⟩, -⟩ := h5 u (by simp)
      have hrun := splitFrom_run (rest := ts.flatMap (putAt σ)) (u :: us) h5
      have hrun' := splitFrom_run (rest := ts.flatMap (putAt σ)) us fun x hx => h5 x (by simp [hx])
      have hpush : ((splitFrom (us ++ ts.flatMap (putAt σ)) t.range.start.line).push u) =
          (splitFrom (ts.flatMap (putAt σ)) t.range.start.line).pushAll (putAt σ t) := by
        rw [hrun', h1]; rfl
      have hmain := like_pushAll (t := t) (ih1 t.range.start.line)
      rw [← hpush] at hmain
      rw [h1, List.cons_append]
      refine ⟨fun l => ?_, ?_⟩
      · rw [splitFrom, splitFrom, if_neg hc', if_neg hc, if_neg he', if_neg he, if_neg he', if_neg he, h2]
        by_cases hl : t.range.start.line = l
        · subst hl
          rw [if_pos rfl, if_pos rfl]
          exact hmain
        · rw [if_neg hl, if_neg hl]
          exact hnil hmain
      · rw [splitGap, splitGap, if_neg hc', if_neg hc, if_neg he', if_neg he, h2]
        exact hmain
    · have h5 := h4 hi
      have hnone : σ t = none := by
        cases hs : σ t with
        | none => rfl
        | some e => exact absurd (hσ t e hs).1 hi
      rw [h5, List.singleton_append]
      by_cases hc : t.tokenType = .comma
      · refine ⟨fun l => ?_, ?_⟩
        · rw [splitFrom, splitFrom, if_pos hc, if_pos hc]
          exact hnil ih2
        · rw [splitGap, splitGap, if_pos hc, if_pos hc]
          exact ih2
      · have he : t.tokenType = .ellipsis := by
          by_cases he : t.tokenType = .ellipsis
          · exact he
          · exact absurd ⟨hc, he⟩ hi
        refine ⟨fun l => ?_, ?_⟩
        · rw [splitFrom, splitFrom, if_neg hc, if_neg hc, if_pos he, if_pos he, if_pos he, if_pos he,
            firstLine_putAt hσ, firstLine_putAt hσ]
          split
          · exact ih1 _
          · exact hnil (ih1 _)
        · rw [splitGap, splitGap, if_neg hc, if_neg hc, if_pos he, if_pos he, firstLine_putAt hσ]
          exact ih1 _

/-- Tokens with the same types and lines have the same statements. -/
theorem steps_of_keys {l : Int} : {ts us : List Token} → ts.map Token.key = us.map Token.key → SameSteps l l ts us
  | [], [], _ => trivial
  | [], _ :: _, h => by simp at h
  | _ :: _, [], h => by simp at h
  | t :: ts, u :: us, h => by
    simp only [List.map_cons, List.cons.injEq, Token.key, Prod.mk.injEq] at h
    obtain ⟨⟨h1, h2⟩, h3⟩ := h
    refine ⟨h1, by rw [h2], ?_⟩
    rw [h2]
    exact steps_of_keys h3

theorem firstLine_keys {l : Int} {ts us : List Token} (h : ts.map Token.key = us.map Token.key) :
    firstLine ts l = firstLine us l := by
  cases ts <;> cases us <;> simp_all [firstLine, Token.key]

/-- The statements of tokens with expressions in place of literals. -/
theorem stmt_putAt {σ : Token → Option Expr} (hσ : PutsInner σ) {ts us : List Token}
    (h : us.map Token.key = (ts.flatMap (putAt σ)).map Token.key) (k : Nat) :
    (stmt us k).map Token.unplaced = (putInTokens σ (stmt ts k)).map Token.unplaced := by
  have h1 := (split_putAt hσ ts).1 (firstLine ts 0)
  have h2 := (split_steps us (ts.flatMap (putAt σ)) _ _ (steps_of_keys (l := firstLine us 0) h)).1
  rw [firstLine_keys h, firstLine_putAt hσ] at h2
  have h3 : Like (split us).all ((split ts).all.map (putInTokens σ)) := by
    rw [split, split, firstLine_keys h, firstLine_putAt hσ]
    exact h2.trans h1
  have hm : ∀ vs : List Token, vs.map Token.unplaced = (vs.map (·.tokenType)).map fun ty =>
      (⟨ty, ⟨⟨0, 0, 0, 0⟩, ⟨0, 0, 0, 0⟩⟩⟩ : Token) := by
    intro vs
    simp [Token.unplaced]
  have h4 : (stmt us k).map (·.tokenType) = (putInTokens σ (stmt ts k)).map (·.tokenType) := by
    have := congrArg (·[k]?) h3
    simp only [List.getElem?_map] at this
    simp only [stmt, List.getD_eq_getElem?_getD]
    revert this
    generalize (split us).all[k]? = x, (split ts).all[k]? = y
    cases x <;> cases y <;> simp [putInTokens]
  rw [hm, hm, h4]

/-- One line is one statement. -/
theorem split_one_line {ts : List Token} {l : Int} (h : ∀ t ∈ ts, t.Inner ∧ t.range.start.line = l) :
    (split ts).all = [ts] := by
  cases ts with
  | nil => rfl
  | cons t ts =>
    have h1 : firstLine (t :: ts) 0 = l := (h t (by simp)).2
    have := splitFrom_run (rest := []) (t :: ts) h
    rw [List.append_nil] at this
    rw [split, h1, this]
    simp [splitFrom, Stmts.pushAll, Stmts.all]

/-- The only statement of a program that is an expression. -/
theorem expression_toks {ts : List Token} {e : Expr} (hs : (split ts).all = [ts])
    (h : parse ts = .ok [.expression e]) : ts = e.toks ∧ e.WF := by
  obtain ⟨L, h1, h2, h3⟩ := (C38_error_free_iff ts _).1 ⟨h, by simp [errorFreeBlock, Node.ErrorFree]⟩
  have h0 : stmt ts 0 = ts := by rw [stmt, hs]; rfl
  have hS : ∀ {st : List Token}, SimpleG [] st (.expression e) → st = e.toks ∧ e.WF := by
    intro st hst
    cases hst with
    | access hv => exact ⟨rfl, hv⟩
    | expression he => exact ⟨rfl, he⟩
  cases h1 with
  | nodes hn hr =>
    cases hn with
    | simple hg =>
      have := h2 0 (by simp)
      rw [h0] at this
      simp at this
      exact this ▸ hS hg
  | skip hr =>
    cases hr with
    | cons hn hr =>
      cases hn with
      | simple hg =>
        have h4 := h2 0 (by simp)
        have h5 := h2 1 (by simp)
        rw [h0] at h4
        simp at h4
        subst h4
        have h6 : stmt [] 1 = [] := rfl
        rw [h6] at h5
        simp at h5
        exact h5 ▸ hS hg

end Lol
