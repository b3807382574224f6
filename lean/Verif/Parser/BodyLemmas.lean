import Verif.Parser.ConstructLemmas
import Verif.Parser.SplitLemmas

/-! # Lemmas: what is read does not depend on the statements after it -/

namespace Lol

/-- A run uses up some of the statements, and gives the same when only some of the others follow. -/
theorem exec_front {α : Type} (p : Prog α) (s : Stmts) :
    (∀ a s', exec p s = .ok a s' → ∃ m, s.later = m ++ s'.later ∧ ∀ r t, s'.later = r ++ t →
      exec p ⟨s.cur, m ++ r⟩ = .ok a ⟨s'.cur, r⟩) ∧
    ∀ e s', exec p s = .err e s' → ∃ m, s.later = m ++ s'.later ∧ ∀ r t, s'.later = r ++ t →
      exec p ⟨s.cur, m ++ r⟩ = .err e ⟨s'.cur, r⟩ := by
  unfold exec
  induction p generalizing s with
  | ret a =>
    refine ⟨fun a s' h => ?_, fun e s' h => by cases h⟩
    cases h
    exact ⟨[], rfl, fun r t _ => rfl⟩
  | err e =>
    refine ⟨fun a s' h => (by cases h), fun e s' h => ?_⟩
    cases h
    exact ⟨[], rfl, fun r t _ => rfl⟩
  | panic => exact ⟨fun a s' h => (by cases h), fun e s' h => by cases h⟩
  | outOfFuel => exact ⟨fun a s' h => (by cases h), fun e s' h => by cases h⟩
  | next k ih =>
    obtain ⟨cur, later⟩ := s
    cases cur with
    | nil => exact ih none ⟨[], later⟩
    | cons t c => exact ih (some t) ⟨c, later⟩
  | peek k ih =>
    obtain ⟨cur, later⟩ := s
    exact ih cur.head? ⟨cur, later⟩
  | nextStatement k ih =>
    obtain ⟨cur, later⟩ := s
    cases later with
    | nil =>
      obtain ⟨ih1, ih2⟩ := ih cur ⟨[], []⟩
      refine ⟨fun a s' h => ?_, fun e s' h => ?_⟩
      · obtain ⟨m, h1, h2⟩ := ih1 a s' h
        obtain ⟨rfl, h1'⟩ := List.append_eq_nil_iff.1 h1.symm
        refine ⟨[], h1, fun r t hr => ?_⟩
        rw [h1'] at hr
        obtain ⟨rfl, rfl⟩ := List.append_eq_nil_iff.1 hr.symm
        exact h2 [] [] h1'
      · obtain ⟨m, h1, h2⟩ := ih2 e s' h
        obtain ⟨rfl, h1'⟩ := List.append_eq_nil_iff.1 h1.symm
        refine ⟨[], h1, fun r t hr => ?_⟩
        rw [h1'] at hr
        obtain ⟨rfl, rfl⟩ := List.append_eq_nil_iff.1 hr.symm
        exact h2 [] [] h1'
    | cons c l =>
      obtain ⟨ih1, ih2⟩ := ih cur ⟨c, l⟩
      refine ⟨fun a s' h => ?_, fun e s' h => ?_⟩
      · obtain ⟨m, h1, h2⟩ := ih1 a s' h
        exact ⟨c :: m, congrArg (c :: ·) h1, h2⟩
      · obtain ⟨m, h1, h2⟩ := ih2 e s' h
        exact ⟨c :: m, congrArg (c :: ·) h1, h2⟩

theorem NodeR.front {s s' : Stmts} {node : Node} (h : NodeR s (.ok node s')) :
    ∃ m, s.later = m ++ s'.later ∧ ∀ r t, s'.later = r ++ t → NodeR ⟨s.cur, m ++ r⟩ (.ok node ⟨s'.cur, r⟩) := by
  obtain ⟨t, cur, later, rfl, n, h⟩ := h.complete
  obtain ⟨m, h1, h2⟩ := (exec_front _ _).1 _ _ (h n (Nat.le_refl n))
  refine ⟨m, h1, fun r u hr => ?_⟩
  have := parseStatement_read (parseBlock_read n) n t cur (m ++ r)
  rw [h2 r u hr] at this
  exact this

theorem NodeR.front_error {s s' : Stmts} {e : ASTError} (h : NodeR s (.error e s')) :
    ∃ m, s.later = m ++ s'.later ∧ ∀ r t, s'.later = r ++ t → NodeR ⟨s.cur, m ++ r⟩ (.error e ⟨s'.cur, r⟩) := by
  obtain ⟨t, cur, later, rfl, n, h⟩ := h.complete
  obtain ⟨m, h1, h2⟩ := (exec_front _ _).2 _ _ (h n (Nat.le_refl n))
  refine ⟨m, h1, fun r u hr => ?_⟩
  have := parseStatement_read (parseBlock_read n) n t cur (m ++ r)
  rw [h2 r u hr] at this
  exact this

theorem StepR.front {s s' : Stmts} {nodes : Block} (h : StepR s (.ok nodes s')) :
    ∃ m l, s.later = m ++ l ∧ s' = .of l ∧ ∀ r t, l = r ++ t → StepR ⟨s.cur, m ++ r⟩ (.ok nodes (.of r)) := by
  generalize hr : Read.ok nodes s' = r at h
  cases h with
  | @empty l => cases hr; exact ⟨[], l, rfl, rfl, fun r t _ => .empty⟩
  | ok h =>
    cases hr
    obtain ⟨m, h1, h2⟩ := h.front
    exact ⟨m, _, h1, rfl, fun r t hr => .ok (h2 r t hr)⟩
  | error h =>
    cases hr
    obtain ⟨m, h1, h2⟩ := h.front_error
    exact ⟨m, _, h1, rfl, fun r t hr => .error (h2 r t hr)⟩
  | panic => cases hr

/-- The statements of a block as a program. -/
theorem BlockR.own {close : List Keyword} {s : Stmts} {r : Read Block} : BlockR close s r → ∀ b s', r = .ok b s' →
    ∃ m l, s.later = m ++ l ∧ s' = .of l ∧ BlockR [] ⟨s.cur, m⟩ (.ok b (.of []))
  | .last h _ => by
    rintro b s' ⟨⟩
    obtain ⟨m, l, h1, h2, h3⟩ := h.front
    refine ⟨m, l, h1, h2, .last ?_ (.inl rfl)⟩
    have := h3 [] l rfl
    rwa [List.append_nil] at this
  | .more (s' := s1) (r := r) h hs hb => by
    have ih := hb.own
    intro b s' he
    cases r with
    | ok b1 s2 =>
      cases he
      obtain ⟨m, l, h1, h2, h3⟩ := h.front
      cases l with
      | nil => rw [h2] at hs; exact absurd (.inl rfl) hs
      | cons c l =>
        subst h2
        obtain ⟨m2, l2, h4, h5, h6⟩ := ih _ _ rfl
        refine ⟨m ++ c :: m2, l2, ?_, h5, ?_⟩
        · rw [h1, show l = m2 ++ l2 from h4]; simp
        · refine .more (r := .ok b1 (.of [])) (h3 (c :: m2) l2 (by rw [show l = m2 ++ l2 from h4]; rfl)) ?_ h6
          rw [stop_root]
          intro hc
          exact hs (.inl hc)
    | error => cases he
    | panic => cases he
  | .panic _ => by rintro _ _ ⟨⟩

/-- A block that has been read inside `s` is what its statements are as a program; a statement with a closing keyword
follows them. -/
theorem BlockReadIn.own {s : Stmts} {b : Block} (h : BlockReadIn s b) :
    ∃ pre m t r post, s.all = pre ++ (m ++ (t :: r) :: post) ∧ m ≠ [] ∧ parseStmts (.of m) = .ok b ∧
      ∃ k ∈ closingKeywords, t.Is k := by
  obtain ⟨close, l, s', h1, h2, h3, h4⟩ := h
  obtain ⟨m, l2, g1, g2, g3⟩ := h2.own _ _ rfl
  have hstop := h2.stop _ _ rfl
  cases l2 with
  | nil => rw [g2] at h3; exact absurd rfl h3
  | cons c l2 =>
    subst g2
    cases c with
    | nil => exact absurd rfl h3
    | cons t r =>
      have hall : (Stmts.of l).all = ((Stmts.of l).cur :: m) ++ (t :: r) :: l2 := by
        rw [Stmts.all, g1]; rfl
      obtain ⟨pre, hpre⟩ := h1 _ (by rw [hall]; intro h; simp at h) (List.suffix_refl _)
      refine ⟨pre, _, t, r, l2, by rw [← hpre, hall], by simp, parseStmts_ok_iff.2 ⟨_, g3⟩, ?_⟩
      rcases hstop with hstop | ⟨t', r', e1, k, hk, e2⟩
      · cases hstop
      · cases e1
        refine ⟨k, ?_, e2⟩
        simp only [List.mem_cons, List.not_mem_nil, or_false] at h4
        rcases h4 with rfl | rfl | rfl | rfl <;>
          simp only [closeLoop, closeFunction, closeSwitch, closeIf, List.mem_cons, List.not_mem_nil, or_false] at hk <;>
          simp only [closingKeywords, List.mem_cons, List.not_mem_nil, or_false]
        · simp [hk]
        · simp [hk]
        · rcases hk with rfl | rfl | rfl <;> simp
        · rcases hk with rfl | rfl | rfl | rfl <;> simp

/-! ## The tokens of consecutive statements -/

/-- The statements from one on are those of the tokens from its first one on. -/
theorem split_from (ts : List Token) :
    (∀ line P u st Q, (splitFrom ts line).all = P ++ (u :: st) :: Q →
      ∃ a s, ts = a ++ u :: s ∧ (split (u :: s)).all = (u :: st) :: Q) ∧
    ∀ P u st Q, splitGap ts = P ++ (u :: st) :: Q → ∃ a s, ts = a ++ u :: s ∧ (split (u :: s)).all = (u :: st) :: Q := by
  induction ts with
  | nil =>
    constructor
    · intro line P u st Q h
      have : (u :: st) ∈ (splitFrom [] line).all := by rw [h]; simp
      simp [splitFrom, Stmts.all] at this
    · intro P u st Q h
      have : (u :: st) ∈ splitGap [] := by rw [h]; simp
      simp [splitGap] at this
  | cons t ts ih =>
    obtain ⟨ih1, ih2⟩ := ih
    have lift : ∀ {u st Q}, (∃ a s, ts = a ++ u :: s ∧ (split (u :: s)).all = (u :: st) :: Q) →
        ∃ a s, t :: ts = a ++ u :: s ∧ (split (u :: s)).all = (u :: st) :: Q := by
      rintro u st Q ⟨a, s, rfl, h⟩
      exact ⟨t :: a, s, rfl, h⟩
    have push : t.tokenType ≠ .comma → t.tokenType ≠ .ellipsis → ∀ P u st Q,
        ((splitFrom ts t.range.start.line).push t).all = P ++ (u :: st) :: Q →
        ∃ a s, t :: ts = a ++ u :: s ∧ (split (u :: s)).all = (u :: st) :: Q := by
      intro hc he P u st Q h
      cases P with
      | nil =>
        have hu : u = t := by
          have := (List.cons.inj h).1
          exact (List.cons.inj this).1.symm
        subst hu
        refine ⟨[], ts, rfl, ?_⟩
        rw [split, firstLine, splitFrom, if_neg hc, if_pos rfl, if_neg he]
        exact h
      | cons p P =>
        refine lift (ih1 t.range.start.line ((splitFrom ts t.range.start.line).cur :: P) u st Q ?_)
        have hl : (splitFrom ts t.range.start.line).later = P ++ (u :: st) :: Q := (List.cons.inj h).2
        rw [Stmts.all, List.cons_append, hl]
    have hgap : ∀ P u st Q, splitGap (t :: ts) = P ++ (u :: st) :: Q →
        ∃ a s, t :: ts = a ++ u :: s ∧ (split (u :: s)).all = (u :: st) :: Q := by
      intro P u st Q h
      rw [splitGap] at h
      split at h
      · exact lift (ih2 _ _ _ _ h)
      · split at h
        · exact lift (ih1 _ _ _ _ _ h)
        · exact push (by assumption) (by assumption) _ _ _ _ h
    refine ⟨fun line P u st Q h => ?_, hgap⟩
    have other : ∀ L, (⟨[], L⟩ : Stmts).all = P ++ (u :: st) :: Q → ∃ P', L = P' ++ (u :: st) :: Q := by
      intro L h
      cases P with
      | nil => cases (List.cons.inj h).1
      | cons p P => exact ⟨P, (List.cons.inj h).2⟩
    rw [splitFrom] at h
    split at h
    · obtain ⟨P', h⟩ := other _ h
      exact lift (ih2 _ _ _ _ h)
    · split at h
      · rename_i hc hl
        split at h
        · exact lift (ih1 _ _ _ _ _ h)
        · rename_i he
          rw [← hl] at h
          exact push hc he _ _ _ _ h
      · obtain ⟨P', h⟩ := other _ h
        split at h
        · exact lift (ih1 _ _ _ _ _ h)
        · exact push (by assumption) (by assumption) _ _ _ _ h

theorem firstLine_append {a : List Token} (h : a ≠ []) (b : List Token) (line : Int) :
    firstLine (a ++ b) line = firstLine a line := by
  cases a with
  | nil => exact absurd rfl h
  | cons t a => rfl

theorem ne_nil_of_last {mid st : List Token} (h : mid.getLast? = st.getLast?) (hs : st ≠ []) : mid ≠ [] := by
  rintro rfl
  exact hs (List.getLast?_eq_none_iff.1 h.symm)

theorem last_cons {t : Token} {mid st : List Token} (h : mid.getLast? = st.getLast?) (hs : st ≠ []) :
    (t :: mid).getLast? = st.getLast? := by
  rw [← h]
  cases mid with
  | nil => exact absurd rfl (ne_nil_of_last h hs)
  | cons u mid => rw [List.getLast?_cons_cons]

/-- The statements up to one are those of the tokens up to its last one. -/
theorem split_upTo (ts : List Token) :
    (∀ line P st Q, (splitFrom ts line).all = P ++ st :: Q → st ≠ [] →
      ∃ mid c, ts = mid ++ c ∧ (splitFrom mid line).all = P ++ [st] ∧ mid.getLast? = st.getLast?) ∧
    ∀ P st Q, splitGap ts = P ++ st :: Q → st ≠ [] →
      ∃ mid c, ts = mid ++ c ∧ splitGap mid = P ++ [st] ∧ mid.getLast? = st.getLast? := by
  induction ts with
  | nil =>
    constructor
    · intro line P st Q h hs
      have : st ∈ (splitFrom [] line).all := by rw [h]; simp
      simp [splitFrom, Stmts.all] at this
      exact absurd this hs
    · intro P st Q h
      have : st ∈ splitGap [] := by rw [h]; simp
      simp [splitGap] at this
  | cons t ts ih =>
    obtain ⟨ih1, ih2⟩ := ih
    have push : ∀ line P st Q, ((splitFrom ts line).push t).all = P ++ st :: Q → st ≠ [] →
        ∃ mid c, ts = mid ++ c ∧ ((splitFrom mid line).push t).all = P ++ [st] ∧ (t :: mid).getLast? = st.getLast? := by
      intro line P st Q h hs
      cases P with
      | nil =>
        obtain ⟨rfl, h⟩ := List.cons.inj h
        by_cases hcur : (splitFrom ts line).cur = []
        · refine ⟨[], ts, rfl, ?_, ?_⟩
          · simp [splitFrom, Stmts.push, Stmts.all, hcur]
          · simp [Stmts.push, hcur]
        · obtain ⟨mid, c, h1, h2, h3⟩ := ih1 line [] _ _ rfl hcur
          refine ⟨mid, c, h1, ?_, ?_⟩
          · have h2 : (splitFrom mid line).cur :: (splitFrom mid line).later = _ := h2
            obtain ⟨h4, h5⟩ := List.cons.inj h2
            show (t :: (splitFrom mid line).cur) :: (splitFrom mid line).later = _
            rw [h4, h5]
            rfl
          · show _ = (t :: (splitFrom ts line).cur).getLast?
            rw [List.getLast?_cons, List.getLast?_cons, h3]
      | cons p P =>
        obtain ⟨h, hl⟩ := List.cons.inj h
        have hl : (splitFrom ts line).later = P ++ st :: Q := hl
        obtain ⟨mid, c, h1, h2, h3⟩ := ih1 line ((splitFrom ts line).cur :: P) st Q
          (by rw [Stmts.all, hl]; rfl) hs
        refine ⟨mid, c, h1, ?_, last_cons h3 hs⟩
        have h2 : (splitFrom mid line).cur :: (splitFrom mid line).later = _ := h2
        obtain ⟨h4, h5⟩ := List.cons.inj h2
        show (t :: (splitFrom mid line).cur) :: (splitFrom mid line).later = _
        rw [h4, h5, ← h]
        rfl
    have dots : ∀ line P st Q, (splitFrom ts (firstLine ts line)).all = P ++ st :: Q → st ≠ [] →
        ∃ mid c, ts = mid ++ c ∧ (splitFrom mid (firstLine mid line)).all = P ++ [st] ∧
          (t :: mid).getLast? = st.getLast? := by
      intro line P st Q h hs
      obtain ⟨mid, c, h1, h2, h3⟩ := ih1 _ _ _ _ h hs
      refine ⟨mid, c, h1, ?_, last_cons h3 hs⟩
      rw [← firstLine_append (ne_nil_of_last h3 hs) c, ← h1]
      exact h2
    have hgap : ∀ P st Q, splitGap (t :: ts) = P ++ st :: Q → st ≠ [] →
        ∃ mid c, ts = mid ++ c ∧ splitGap (t :: mid) = P ++ [st] ∧ (t :: mid).getLast? = st.getLast? := by
      intro P st Q h hs
      by_cases hc : t.tokenType = .comma
      · simp only [splitGap, if_pos hc] at h ⊢
        obtain ⟨mid, c, h1, h2, h3⟩ := ih2 _ _ _ h hs
        exact ⟨mid, c, h1, h2, last_cons h3 hs⟩
      · by_cases he : t.tokenType = .ellipsis
        · simp only [splitGap, if_neg hc, if_pos he] at h ⊢
          exact dots _ _ _ _ h hs
        · simp only [splitGap, if_neg hc, if_neg he] at h ⊢
          exact push _ _ _ _ h hs
    have lift : ∀ {f g : List Token → List (List Token)} {P : List (List Token)} {st : List Token},
        (∀ mid, g mid = f (t :: mid)) →
        (∃ mid c, ts = mid ++ c ∧ g mid = P ++ [st] ∧ (t :: mid).getLast? = st.getLast?) →
        ∃ mid c, t :: ts = mid ++ c ∧ f mid = P ++ [st] ∧ mid.getLast? = st.getLast? := by
      rintro f g P st hfg ⟨mid, c, h1, h2, h3⟩
      exact ⟨t :: mid, c, by rw [h1]; rfl, by rw [← hfg, h2], h3⟩
    refine ⟨fun line P st Q h hs => ?_, fun P st Q h hs =>
      lift (f := splitGap) (g := fun mid => splitGap (t :: mid)) (fun _ => rfl) (hgap P st Q h hs)⟩
    refine lift (f := fun mid => (splitFrom mid line).all) (g := fun mid => (splitFrom (t :: mid) line).all)
      (fun _ => rfl) ?_
    by_cases hc : t.tokenType = .comma
    · simp only [splitFrom, if_pos hc] at h ⊢
      cases P with
      | nil => exact absurd (List.cons.inj h).1.symm hs
      | cons p P =>
        obtain ⟨hp, hq⟩ := List.cons.inj h
        subst hp
        obtain ⟨mid, c, h1, h2, h3⟩ := ih2 _ _ _ hq hs
        exact ⟨mid, c, h1, by rw [Stmts.all, h2]; rfl, last_cons h3 hs⟩
    · by_cases hl : t.range.start.line = line
      · by_cases he : t.tokenType = .ellipsis
        · simp only [splitFrom, if_neg hc, if_pos hl, if_pos he] at h ⊢
          exact dots _ _ _ _ h hs
        · simp only [splitFrom, if_neg hc, if_pos hl, if_neg he] at h ⊢
          exact push _ _ _ _ h hs
      · have hg : ∀ mid, (splitFrom (t :: mid) line).all = [] :: splitGap (t :: mid) := by
          intro mid
          simp only [splitFrom, splitGap, if_neg hc, if_neg hl]
          rfl
        rw [hg] at h
        cases P with
        | nil => exact absurd (List.cons.inj h).1.symm hs
        | cons p P =>
          obtain ⟨hp, hq⟩ := List.cons.inj h
          subst hp
          obtain ⟨mid, c, h1, h2, h3⟩ := hgap _ _ _ hq hs
          exact ⟨mid, c, h1, by rw [hg, h2]; rfl, h3⟩

/-- Consecutive statements, of which the first and the last are not empty, are those of a part of the tokens. -/
theorem stmts_segment {ts : List Token} {pre m post : List (List Token)} (h : (split ts).all = pre ++ (m ++ post))
    (h1 : ∀ st, m.head? = some st → st ≠ []) (h2 : ∀ st, m.getLast? = some st → st ≠ []) (hm : m ≠ []) :
    ∃ a mid c first last, ts = a ++ (mid ++ c) ∧ (split mid).all = m ∧ m.head? = some first ∧
      mid.head? = first.head? ∧ m.getLast? = some last ∧ mid.getLast? = last.getLast? := by
  obtain ⟨st, m', rfl⟩ : ∃ st m', m = st :: m' := by
    cases m with
    | nil => exact absurd rfl hm
    | cons st m' => exact ⟨st, m', rfl⟩
  obtain ⟨u, st, rfl⟩ : ∃ u st', st = u :: st' := by
    cases st with
    | nil => exact absurd rfl (h1 [] rfl)
    | cons u st => exact ⟨u, st, rfl⟩
  obtain ⟨a, s, g1, g2⟩ := (split_from ts).1 _ pre u st (m' ++ post) h
  obtain ⟨init, last, e⟩ : ∃ init last, (u :: st) :: m' = init ++ [last] :=
    ⟨((u :: st) :: m').dropLast, ((u :: st) :: m').getLast (by simp), (List.dropLast_concat_getLast (by simp)).symm⟩
  have hlast : last ≠ [] := h2 last (by rw [e]; simp)
  obtain ⟨mid, c, g3, g4, g5⟩ := (split_upTo (u :: s)).1 _ init last post
    (by rw [show (splitFrom (u :: s) (firstLine (u :: s) 0)).all = _ from g2]
        have := congrArg (· ++ post) e
        simpa using this) hlast
  obtain ⟨mid', rfl⟩ : ∃ mid', mid = u :: mid' := by
    cases mid with
    | nil => exact absurd rfl (ne_nil_of_last g5 hlast)
    | cons v mid' =>
      have := (List.cons.inj g3).1
      exact ⟨mid', by rw [this]⟩
  refine ⟨a, u :: mid', c, u :: st, last, by rw [g1, g3], ?_, rfl, rfl, by rw [e]; simp, g5⟩
  rw [e, ← g4]
  rfl

end Lol
