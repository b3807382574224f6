import Verif.Parser.BodyLemmas
import Verif.Parser.AppendLemmas

/-! # Lemmas: the statement in which `parse` panics -/

namespace Lol

/-- The statement `q` panics: alone, or its tokens after `OMG` or `MEBBE` do so where an expression is read. -/
def Faulty (q : List Token) (p : PanicSite) : Prop :=
  (∀ l, StepR ⟨q, l⟩ (.panic p)) ∨
  ∃ t ts rest, q = t :: (ts ++ rest) ∧ (t.Is .OMG ∨ t.Is .MEBBE) ∧ ExprFail rest ts (.panic p)

/-- There is such a statement in `s`, and the statements up to it are enough for the panic. -/
def Located {α : Type} (R : Stmts → Read α → Prop) (s : Stmts) (p : PanicSite) : Prop :=
  ∃ m q r, s.all = m ++ q :: r ∧ Faulty q p ∧ R (.of (m ++ [q])) (.panic p)

/-- What is read before the statement `s'` is read as well when only some statements follow. -/
def Front {α : Type} (R : Stmts → Read α → Prop) (s : Stmts) (a : α) (s' : Stmts) : Prop :=
  (s' = s ∧ ∀ l, R ⟨s.cur, l⟩ (.ok a ⟨s.cur, l⟩)) ∨
  ∃ m l, s.later = m ++ l ∧ s' = .of l ∧ ∀ c r t, l = c :: (r ++ t) → R ⟨s.cur, m ++ c :: r⟩ (.ok a ⟨c, r⟩)

theorem BlockR.front {close : List Keyword} {s : Stmts} {r : Read Block} : BlockR close s r → ∀ b s', r = .ok b s' →
    ∃ m l, s.later = m ++ l ∧ s' = .of l ∧
      ∀ c r t, l = c :: (r ++ t) → BlockR close ⟨s.cur, m ++ c :: r⟩ (.ok b ⟨c, r⟩)
  | .last h hs => by
    rintro b s' ⟨⟩
    obtain ⟨m, l, h1, rfl, h3⟩ := h.front
    refine ⟨m, l, h1, rfl, ?_⟩
    rintro c r t rfl
    exact .last (h3 (c :: r) t rfl) hs
  | .more (s' := s1) (r := r) h hs hb => by
    have ih := hb.front
    intro b s' he
    cases r with
    | ok b1 s2 =>
      cases he
      obtain ⟨m, l, h1, rfl, h3⟩ := h.front
      cases l with
      | nil => exact absurd (.inl rfl) hs
      | cons c l =>
        obtain ⟨m2, l2, h4, rfl, h6⟩ := ih _ _ rfl
        have h4 : l = m2 ++ l2 := h4
        refine ⟨m ++ c :: m2, l2, by rw [h1, h4]; simp, rfl, ?_⟩
        rintro d r t rfl
        have := BlockR.more (close := close) (h3 (c :: (m2 ++ d :: r)) t (by rw [h4]; simp)) hs (h6 d r t rfl)
        simpa [Read.map] using this
    | error => cases he
    | panic => cases he
  | .panic _ => by rintro _ _ ⟨⟩

theorem OmgsR.front {s : Stmts} {r : Read (List WtfOmg)} : OmgsR s r → ∀ a s', r = .ok a s' → Front OmgsR s a s'
  | .nil h => by
    rintro a s' ⟨⟩
    exact .inl ⟨rfl, fun l => .nil h⟩
  | .valueEnd _ => by rintro _ _ ⟨⟩
  | .value (f := f) _ _ => by intro _ _ h; cases f <;> cases h
  | .left _ _ _ _ => by rintro _ _ ⟨⟩
  | .body _ _ _ => by rintro _ _ ⟨⟩
  | .cons (r := r) h1 h2 h3 h4 => by
    have ih := h4.front
    intro a s' he
    cases r with
    | ok b s2 =>
      cases he
      obtain ⟨m, l, g1, rfl, g3⟩ := h3.front _ _ rfl
      rename_i t e l0 nodes
      cases l0 with
      | nil =>
        have g1 : [] = m ++ l := g1
        obtain ⟨rfl, rfl⟩ := List.append_eq_nil_iff.1 g1.symm
        cases h4.at_end
        exact .inr ⟨[], [], rfl, rfl, by rintro c r t ⟨⟩⟩
      | cons c l0 =>
        have g1 : l0 = m ++ l := g1
        rcases ih _ _ rfl with ⟨rfl, g4⟩ | ⟨m2, l2, g4, rfl, g6⟩
        · refine .inr ⟨c :: m, l, by rw [g1]; rfl, rfl, ?_⟩
          rintro d r t rfl
          exact .cons (r := .ok _ _) h1 h2 (g3 d r t rfl) (g4 r)
        · cases l with
          | nil =>
            have g4 : [] = m2 ++ l2 := g4
            obtain ⟨rfl, rfl⟩ := List.append_eq_nil_iff.1 g4.symm
            exact .inr ⟨c :: m, [], by rw [g1]; rfl, rfl, by rintro c r t ⟨⟩⟩
          | cons d l =>
            have g4 : l = m2 ++ l2 := g4
            refine .inr ⟨c :: (m ++ d :: m2), l2, by rw [g1, g4]; simp, rfl, ?_⟩
            rintro x r t rfl
            have := OmgsR.cons (l := c :: (m ++ d :: (m2 ++ x :: r))) (r := .ok _ _) h1 h2 (g3 d (m2 ++ x :: r) t (by rw [g4]; simp)) (g6 x r t rfl)
            simpa [Stmts.of, Read.map] using this
    | error => cases he
    | panic => cases he

theorem MebbesR.front {s : Stmts} {r : Read (List Mebbe)} : MebbesR s r → ∀ a s', r = .ok a s' → Front MebbesR s a s'
  | .nil h => by
    rintro a s' ⟨⟩
    exact .inl ⟨rfl, fun l => .nil h⟩
  | .valueEnd _ => by rintro _ _ ⟨⟩
  | .value (f := f) _ _ => by intro _ _ h; cases f <;> cases h
  | .left _ _ _ _ => by rintro _ _ ⟨⟩
  | .body _ _ _ => by rintro _ _ ⟨⟩
  | .cons (r := r) h1 h2 h3 h4 => by
    have ih := h4.front
    intro a s' he
    cases r with
    | ok b s2 =>
      cases he
      obtain ⟨m, l, g1, rfl, g3⟩ := h3.front _ _ rfl
      rename_i t e l0 nodes
      cases l0 with
      | nil =>
        have g1 : [] = m ++ l := g1
        obtain ⟨rfl, rfl⟩ := List.append_eq_nil_iff.1 g1.symm
        cases h4.at_end
        exact .inr ⟨[], [], rfl, rfl, by rintro c r t ⟨⟩⟩
      | cons c l0 =>
        have g1 : l0 = m ++ l := g1
        rcases ih _ _ rfl with ⟨rfl, g4⟩ | ⟨m2, l2, g4, rfl, g6⟩
        · refine .inr ⟨c :: m, l, by rw [g1]; rfl, rfl, ?_⟩
          rintro d r t rfl
          exact .cons (r := .ok _ _) h1 h2 (g3 d r t rfl) (g4 r)
        · cases l with
          | nil =>
            have g4 : [] = m2 ++ l2 := g4
            obtain ⟨rfl, rfl⟩ := List.append_eq_nil_iff.1 g4.symm
            exact .inr ⟨c :: m, [], by rw [g1]; rfl, rfl, by rintro c r t ⟨⟩⟩
          | cons d l =>
            have g4 : l = m2 ++ l2 := g4
            refine .inr ⟨c :: (m ++ d :: m2), l2, by rw [g1, g4]; simp, rfl, ?_⟩
            rintro x r t rfl
            have := MebbesR.cons (l := c :: (m ++ d :: (m2 ++ x :: r))) (r := .ok _ _) h1 h2 (g3 d (m2 ++ x :: r) t (by rw [g4]; simp)) (g6 x r t rfl)
            simpa [Stmts.of, Read.map] using this
    | error => cases he
    | panic => cases he

theorem YaRlyR.front {s : Stmts} {r : Read (Option YaRly)} : YaRlyR s r → ∀ a s', r = .ok a s' → Front YaRlyR s a s'
  | .none h => by
    rintro a s' ⟨⟩
    exact .inl ⟨rfl, fun l => .none h⟩
  | .left _ _ => by rintro _ _ ⟨⟩
  | .some (r := r) h1 h2 => by
    intro a s' he
    cases r with
    | ok b s2 =>
      cases he
      obtain ⟨m, l, g1, rfl, g3⟩ := h2.front _ _ rfl
      rename_i t l0
      cases l0 with
      | nil =>
        have g1 : [] = m ++ l := g1
        obtain ⟨rfl, rfl⟩ := List.append_eq_nil_iff.1 g1.symm
        exact .inr ⟨[], [], rfl, rfl, by rintro c r t ⟨⟩⟩
      | cons c l0 =>
        have g1 : l0 = m ++ l := g1
        refine .inr ⟨c :: m, l, by rw [g1]; rfl, rfl, ?_⟩
        rintro d r t rfl
        exact .some (r := .ok _ _) h1 (g3 d r t rfl)
    | error => cases he
    | panic => cases he

/-! ## The panics -/

theorem Located.of {α : Type} {R : Stmts → Read α → Prop} {l : List (List Token)} {p : PanicSite}
    (h : Located R (.of l) p) (hend : ∀ r, R ⟨[], []⟩ r → ∃ a, r = .ok a ⟨[], []⟩) :
    ∃ m q r, l = m ++ q :: r ∧ Faulty q p ∧ R (.of (m ++ [q])) (.panic p) := by
  obtain ⟨m, q, r, h1, h2, h3⟩ := h
  cases l with
  | nil =>
    have h1 : [[]] = m ++ q :: r := h1
    cases m with
    | nil =>
      cases h1
      obtain ⟨a, h⟩ := hend _ h3
      cases h
    | cons c m => cases m <;> simp at h1
  | cons c l => exact ⟨m, q, r, h1, h2, h3⟩

theorem BlockR.end_ok {close : List Keyword} (r : Read Block) (h : BlockR close ⟨[], []⟩ r) :
    ∃ a, r = .ok a ⟨[], []⟩ := ⟨_, h.at_end⟩

theorem OmgsR.end_ok (r : Read (List WtfOmg)) (h : OmgsR ⟨[], []⟩ r) : ∃ a, r = .ok a ⟨[], []⟩ := ⟨_, h.at_end⟩

theorem OmgWtfR.end_ok (r : Read (Option WtfOmgWtf)) (h : OmgWtfR ⟨[], []⟩ r) : ∃ a, r = .ok a ⟨[], []⟩ :=
  ⟨_, h.at_end⟩

theorem YaRlyR.end_ok (r : Read (Option YaRly)) (h : YaRlyR ⟨[], []⟩ r) : ∃ a, r = .ok a ⟨[], []⟩ := ⟨_, h.at_end⟩

theorem MebbesR.end_ok (r : Read (List Mebbe)) (h : MebbesR ⟨[], []⟩ r) : ∃ a, r = .ok a ⟨[], []⟩ := ⟨_, h.at_end⟩

theorem NoWaiR.end_ok (r : Read (Option NoWai)) (h : NoWaiR ⟨[], []⟩ r) : ∃ a, r = .ok a ⟨[], []⟩ := ⟨_, h.at_end⟩

/-- A part after another one. -/
theorem Front.located {α β : Type} {R : Stmts → Read α → Prop} {S : Stmts → Read β → Prop} {l : List (List Token)}
    {a : α} {s' : Stmts} {p : PanicSite} (h : Front R (.of l) a s') (hS : Located S s' p)
    (hend : ∀ r, S ⟨[], []⟩ r → ∃ a, r = .ok a ⟨[], []⟩) :
    ∃ m q r s1, l = m ++ q :: r ∧ Faulty q p ∧ R (.of (m ++ [q])) (.ok a s1) ∧ S s1 (.panic p) := by
  rcases h with ⟨rfl, h1⟩ | ⟨m, l2, h1, rfl, h2⟩
  · obtain ⟨m, q, r, rfl, h4, h5⟩ := hS.of hend
    cases m with
    | nil => exact ⟨[], q, r, ⟨q, []⟩, rfl, h4, h1 [], h5⟩
    | cons c m => exact ⟨c :: m, q, r, ⟨c, m ++ [q]⟩, rfl, h4, h1 _, h5⟩
  · obtain ⟨m2, q, r, rfl, h4, h5⟩ := hS.of hend
    cases l with
    | nil =>
      have h1 : [] = m ++ (m2 ++ q :: r) := h1
      have := congrArg List.length h1
      simp at this
    | cons c l =>
      have h1 : l = m ++ (m2 ++ q :: r) := h1
      refine ⟨c :: (m ++ m2), q, r, .of (m2 ++ [q]), by rw [h1]; simp, h4, ?_, h5⟩
      cases m2 with
      | nil =>
        have := h2 q [] r rfl
        simpa [Stmts.of] using this
      | cons d m2 =>
        have := h2 d (m2 ++ [q]) r (by simp)
        simpa [Stmts.of] using this

/-- Two parts before the one that panics. -/
theorem Front.then {α β : Type} {R : Stmts → Read α → Prop} {S : Stmts → Read β → Prop} {l : List (List Token)}
    {a : α} {b : β} {s' s'' : Stmts} (h : Front R (.of l) a s') (h' : Front S s' b s'')
    (hend : ∀ r, S ⟨[], []⟩ r → ∃ a, r = .ok a ⟨[], []⟩) (hr : S s' (.ok b s'')) :
    Front (fun s r => ∃ a' s1, R s (.ok a' s1) ∧ a' = a ∧ S s1 r) (.of l) b s'' := by
  rcases h with ⟨rfl, h1⟩ | ⟨m, l1, h1, rfl, h2⟩
  · rcases h' with ⟨rfl, h3⟩ | ⟨m', l2, h3, rfl, h4⟩
    · exact .inl ⟨rfl, fun l => ⟨a, _, h1 l, rfl, h3 l⟩⟩
    · exact .inr ⟨m', l2, h3, rfl, fun c r t hl => ⟨a, _, h1 _, rfl, h4 c r t hl⟩⟩
  · cases l1 with
    | nil =>
      obtain ⟨x, hx⟩ := hend _ hr
      cases hx
      exact .inr ⟨m, [], h1, rfl, by rintro c r t ⟨⟩⟩
    | cons c l1 =>
      rcases h' with ⟨rfl, h3⟩ | ⟨m', l2, h3, rfl, h4⟩
      · exact .inr ⟨m, c :: l1, h1, rfl, fun c' r t hl => by
          cases hl
          exact ⟨a, _, h2 c r t rfl, rfl, h3 r⟩⟩
      · have h3 : l1 = m' ++ l2 := h3
        refine .inr ⟨m ++ c :: m', l2, by rw [h1, h3]; simp, rfl, ?_⟩
        rintro d r t rfl
        have := h2 c (m' ++ d :: r) t (by rw [h3]; simp)
        refine ⟨a, ⟨c, m' ++ d :: r⟩, by simpa using this, rfl, h4 d r t rfl⟩

theorem Fail.read_panic {α : Type} {f : Fail} {s : Stmts} {p : PanicSite} (h : (f.read s : Read α) = .panic p) :
    f = .panic p := by
  cases f <;> cases h; rfl

theorem Read.map_panic {α β : Type} {r : Read α} {g : α → β} {p : PanicSite} (h : r.map g = .panic p) :
    r = .panic p := by
  cases r <;> cases h; rfl

mutual

theorem NodeR.located {s : Stmts} {r : Read Node} : NodeR s r → ∀ p, r = .panic p → Located NodeR s p
  | .simple _ => by rintro _ ⟨⟩
  | .simpleFail h => by
    intro p hp
    cases Fail.read_panic hp
    exact ⟨[], _, _, rfl, .inl fun l => .panic (.simpleFail (f := .panic p) h), .simpleFail (f := .panic p) h⟩
  | .hai _ => by rintro _ ⟨⟩
  | .headFail h => by
    intro p hp
    cases Fail.read_panic hp
    exact ⟨[], _, _, rfl, .inl fun l => .panic (.headFail (f := .panic p) h), .headFail (f := .panic p) h⟩
  | .headLeft _ _ => by rintro _ ⟨⟩
  | .loop _ _ _ => by rintro _ ⟨⟩
  | .loopPanic h1 h2 => by
    have ih := h2.located
    intro p hp
    cases hp
    obtain ⟨m, q, r, rfl, g2, g3⟩ := (ih _ rfl).of BlockR.end_ok
    exact ⟨_ :: m, q, r, rfl, g2, .loopPanic h1 g3⟩
  | .loopEnd _ _ => by rintro _ ⟨⟩
  | .loopLabelEnd _ _ => by rintro _ ⟨⟩
  | .loopLabel _ _ _ => by rintro _ ⟨⟩
  | .function _ _ => by rintro _ ⟨⟩
  | .functionPanic h1 h2 => by
    have ih := h2.located
    intro p hp
    cases hp
    obtain ⟨m, q, r, rfl, g2, g3⟩ := (ih _ rfl).of BlockR.end_ok
    exact ⟨_ :: m, q, r, rfl, g2, .functionPanic h1 g3⟩
  | .functionEnd _ _ => by rintro _ ⟨⟩
  | .functionLeft _ _ _ => by rintro _ ⟨⟩
  | .switch _ _ _ _ => by rintro _ ⟨⟩
  | .switchCases h1 h2 => by
    have ih := h2.located
    intro p hp
    cases Fail.read_panic hp
    obtain ⟨m, q, r, rfl, g2, g3⟩ := (ih _ rfl).of OmgsR.end_ok
    exact ⟨_ :: m, q, r, rfl, g2, .switchCases (f := .panic p) (s := ⟨[], []⟩) h1 g3⟩
  | .switchDefault h1 h2 h3 => by
    have ih := h3.located
    intro p hp
    cases Fail.read_panic hp
    obtain ⟨m, q, r, s1, rfl, g2, g3, g4⟩ := (h2.front _ _ rfl).located (ih _ rfl) OmgWtfR.end_ok
    exact ⟨_ :: m, q, r, rfl, g2, .switchDefault (f := .panic p) (s := ⟨[], []⟩) h1 g3 g4⟩
  | .switchEnd _ _ _ => by rintro _ ⟨⟩
  | .switchOther _ _ _ _ => by rintro _ ⟨⟩
  | .switchLeft _ _ _ _ _ => by rintro _ ⟨⟩
  | .conditional _ _ _ _ _ => by rintro _ ⟨⟩
  | .conditionalYes h1 h2 => by
    have ih := h2.located
    intro p hp
    cases Fail.read_panic hp
    obtain ⟨m, q, r, rfl, g2, g3⟩ := (ih _ rfl).of YaRlyR.end_ok
    exact ⟨_ :: m, q, r, rfl, g2, .conditionalYes (f := .panic p) (s := ⟨[], []⟩) h1 g3⟩
  | .conditionalMaybe h1 h2 h3 => by
    have ih := h3.located
    intro p hp
    cases Fail.read_panic hp
    obtain ⟨m, q, r, s1, rfl, g2, g3, g4⟩ := (h2.front _ _ rfl).located (ih _ rfl) MebbesR.end_ok
    exact ⟨_ :: m, q, r, rfl, g2, .conditionalMaybe (f := .panic p) (s := ⟨[], []⟩) h1 g3 g4⟩
  | .conditionalNo h1 h2 h3 h4 => by
    have ih := h4.located
    intro p hp
    cases Fail.read_panic hp
    obtain ⟨m, q, r, s1, rfl, g2, ⟨a, s2, g3, rfl, g5⟩, g4⟩ :=
      ((h2.front _ _ rfl).then (h3.front _ _ rfl) MebbesR.end_ok h3).located (ih _ rfl) NoWaiR.end_ok
    exact ⟨_ :: m, q, r, rfl, g2, .conditionalNo (f := .panic p) (s := ⟨[], []⟩) h1 g3 g5 g4⟩
  | .conditionalEnd _ _ _ _ => by rintro _ ⟨⟩
  | .conditionalOther _ _ _ _ _ => by rintro _ ⟨⟩

theorem OmgsR.located {s : Stmts} {r : Read (List WtfOmg)} : OmgsR s r → ∀ p, r = .panic p → Located OmgsR s p
  | .nil _ => by rintro _ ⟨⟩
  | .valueEnd _ => by rintro _ ⟨⟩
  | .value h1 h2 => by
    intro p hp
    cases Fail.read_panic hp
    exact ⟨[], _, _, rfl, .inr ⟨_, _, _, rfl, .inl h1, h2⟩, .value (f := .panic p) h1 h2⟩
  | .left _ _ _ _ => by rintro _ ⟨⟩
  | .body h1 h2 h3 => by
    have ih := h3.located
    intro p hp
    cases hp
    obtain ⟨m, q, r, rfl, g2, g3⟩ := (ih _ rfl).of BlockR.end_ok
    exact ⟨_ :: m, q, r, rfl, g2, .body h1 h2 g3⟩
  | .cons h1 h2 h3 h4 => by
    have ih := h4.located
    intro p hp
    cases Read.map_panic hp
    have hf : Front (BlockR closeSwitch) (.of _) _ _ := .inr (h3.front _ _ rfl)
    obtain ⟨m, q, r, s1, rfl, g2, g3, g4⟩ := hf.located (ih _ rfl) OmgsR.end_ok
    exact ⟨_ :: m, q, r, rfl, g2, .cons (r := .panic p) h1 h2 g3 g4⟩

theorem OmgWtfR.located {s : Stmts} {r : Read (Option WtfOmgWtf)} : OmgWtfR s r → ∀ p, r = .panic p →
    Located OmgWtfR s p
  | .none _ => by rintro _ ⟨⟩
  | .left _ _ => by rintro _ ⟨⟩
  | .some h1 h2 => by
    have ih := h2.located
    intro p hp
    cases Read.map_panic hp
    obtain ⟨m, q, r, rfl, g2, g3⟩ := (ih _ rfl).of BlockR.end_ok
    exact ⟨_ :: m, q, r, rfl, g2, .some (r := .panic p) h1 g3⟩

theorem YaRlyR.located {s : Stmts} {r : Read (Option YaRly)} : YaRlyR s r → ∀ p, r = .panic p → Located YaRlyR s p
  | .none _ => by rintro _ ⟨⟩
  | .left _ _ => by rintro _ ⟨⟩
  | .some h1 h2 => by
    have ih := h2.located
    intro p hp
    cases Read.map_panic hp
    obtain ⟨m, q, r, rfl, g2, g3⟩ := (ih _ rfl).of BlockR.end_ok
    exact ⟨_ :: m, q, r, rfl, g2, .some (r := .panic p) h1 g3⟩

theorem MebbesR.located {s : Stmts} {r : Read (List Mebbe)} : MebbesR s r → ∀ p, r = .panic p → Located MebbesR s p
  | .nil _ => by rintro _ ⟨⟩
  | .valueEnd _ => by rintro _ ⟨⟩
  | .value h1 h2 => by
    intro p hp
    cases Fail.read_panic hp
    exact ⟨[], _, _, rfl, .inr ⟨_, _, _, rfl, .inr h1, h2⟩, .value (f := .panic p) h1 h2⟩
  | .left _ _ _ _ => by rintro _ ⟨⟩
  | .body h1 h2 h3 => by
    have ih := h3.located
    intro p hp
    cases hp
    obtain ⟨m, q, r, rfl, g2, g3⟩ := (ih _ rfl).of BlockR.end_ok
    exact ⟨_ :: m, q, r, rfl, g2, .body h1 h2 g3⟩
  | .cons h1 h2 h3 h4 => by
    have ih := h4.located
    intro p hp
    cases Read.map_panic hp
    have hf : Front (BlockR closeIf) (.of _) _ _ := .inr (h3.front _ _ rfl)
    obtain ⟨m, q, r, s1, rfl, g2, g3, g4⟩ := hf.located (ih _ rfl) MebbesR.end_ok
    exact ⟨_ :: m, q, r, rfl, g2, .cons (r := .panic p) h1 h2 g3 g4⟩

theorem NoWaiR.located {s : Stmts} {r : Read (Option NoWai)} : NoWaiR s r → ∀ p, r = .panic p → Located NoWaiR s p
  | .none _ => by rintro _ ⟨⟩
  | .left _ _ => by rintro _ ⟨⟩
  | .some h1 h2 => by
    have ih := h2.located
    intro p hp
    cases Read.map_panic hp
    obtain ⟨m, q, r, rfl, g2, g3⟩ := (ih _ rfl).of BlockR.end_ok
    exact ⟨_ :: m, q, r, rfl, g2, .some (r := .panic p) h1 g3⟩

theorem StepR.located {s : Stmts} {r : Read Block} : StepR s r → ∀ p, r = .panic p → Located StepR s p
  | .empty => by rintro _ ⟨⟩
  | .ok _ => by rintro _ ⟨⟩
  | .error _ => by rintro _ ⟨⟩
  | .panic h => by
    have ih := h.located
    intro p hp
    cases hp
    obtain ⟨m, q, r, g1, g2, g3⟩ := ih _ rfl
    exact ⟨m, q, r, g1, g2, .panic g3⟩

theorem BlockR.located {close : List Keyword} {s : Stmts} {r : Read Block} : BlockR close s r → ∀ p, r = .panic p →
    Located (BlockR close) s p
  | .last _ _ => by rintro _ ⟨⟩
  | .more (s := s) (r := r) h1 h2 h3 => by
    have ih := h3.located
    intro p hp
    cases Read.map_panic hp
    obtain ⟨m, l, g1, rfl, g3⟩ := h1.front
    obtain ⟨m2, q, r, rfl, g5, g6⟩ := (ih _ rfl).of BlockR.end_ok
    refine ⟨s.cur :: (m ++ m2), q, r, by rw [Stmts.all, g1]; simp, g5, ?_⟩
    have h4 := g3 (m2 ++ [q]) r (by simp)
    have h5 : ¬ Stop close (.of (m2 ++ [q])) := by cases m2 <;> exact h2
    have := BlockR.more (close := close) h4 h5 g6
    simpa [Stmts.of, Read.map] using this
  | .panic h => by
    have ih := h.located
    intro p hp
    cases hp
    obtain ⟨m, q, r, g1, g2, g3⟩ := ih _ rfl
    exact ⟨m, q, r, g1, g2, .panic g3⟩

end

end Lol
