import Verif.Parser.ReadFacts
import Verif.Parser.Split
import Verif.Parser.AppendSpec

/-! # Lemmas: statements added at the end -/

namespace Lol

/-- The statements with more at the end. -/
def Stmts.more (s : Stmts) (e : List (List Token)) : Stmts := ⟨s.cur, s.later ++ e⟩

/-- What has been read when there are more statements at the end. -/
def Read.more {α : Type} (e : List (List Token)) : Read α → Read α
  | .ok a s => .ok a (s.more e)
  | .error x s => .error x (s.more e)
  | .panic p => .panic p

theorem Read.more_map {α β : Type} (r : Read α) (g : α → β) (e : List (List Token)) :
    (r.map g).more e = (r.more e).map g := by
  cases r <;> rfl

theorem Fail.read_more {α : Type} (f : Fail) (s : Stmts) (e : List (List Token)) :
    (f.read s : Read α).more e = f.read (s.more e) := by
  cases f <;> rfl

/-- A part is read in the same way when more statements are at the end; or it was read up to the end. -/
def PartExt {α : Type} (R : Stmts → Read α → Prop) (s s1 : Stmts) (e : List (List Token)) (r : Read α) : Prop :=
  R s1 (r.more e) ∨ (∃ a, r = .ok a ⟨[], []⟩) ∨ ∃ x, r = .error x ⟨[], []⟩ ∧ R s1 (.error x (.of e))

/-- The same for a statement. -/
def NodeExt (s : Stmts) (e : List (List Token)) (r : Read Node) : Prop :=
  NodeR (s.more e) (r.more e) ∨ (∃ n, r = .ok n ⟨[], []⟩ ∧ NodeR (s.more e) (.ok n (.of e))) ∨
    ∃ x, r = .error x ⟨[], []⟩ ∧ (x.Unclosed ∨ NodeR (s.more e) (.error x (.of e)))

/-- The same for a statement of a block. -/
def StepExt (s : Stmts) (e : List (List Token)) (r : Read Block) : Prop :=
  StepR (s.more e) (r.more e) ∨ ∃ nodes, r = .ok nodes ⟨[], []⟩ ∧
    ((∃ more s1, StepR (s.more e) (.ok (nodes ++ more) s1)) ∨ ∃ x, nodes = [.astError x] ∧ x.Unclosed)

theorem StepR.at_end {r : Read Block} (h : StepR ⟨[], []⟩ r) : r = .ok [] ⟨[], []⟩ := by
  generalize hs : Stmts.mk [] [] = s at h
  cases h with
  | empty => cases hs; rfl
  | ok h => exact absurd (by rw [← hs]) h.first
  | error h => exact absurd (by rw [← hs]) h.first
  | panic h => exact absurd (by rw [← hs]) h.first

theorem BlockR.at_end {close : List Keyword} {r : Read Block} (h : BlockR close ⟨[], []⟩ r) :
    r = .ok [] ⟨[], []⟩ := by
  cases h with
  | last h hs => exact h.at_end
  | more h hs hb => cases h.at_end; exact absurd (.inl rfl) hs
  | panic h => cases h.at_end

theorem OmgsR.at_end {r : Read (List WtfOmg)} (h : OmgsR ⟨[], []⟩ r) : r = .ok [] ⟨[], []⟩ := by
  cases h; rfl

theorem OmgWtfR.at_end {r : Read (Option WtfOmgWtf)} (h : OmgWtfR ⟨[], []⟩ r) : r = .ok Option.none ⟨[], []⟩ := by
  cases h; rfl

theorem YaRlyR.at_end {r : Read (Option YaRly)} (h : YaRlyR ⟨[], []⟩ r) : r = .ok Option.none ⟨[], []⟩ := by
  cases h; rfl

theorem MebbesR.at_end {r : Read (List Mebbe)} (h : MebbesR ⟨[], []⟩ r) : r = .ok [] ⟨[], []⟩ := by
  cases h; rfl

theorem NoWaiR.at_end {r : Read (Option NoWai)} (h : NoWaiR ⟨[], []⟩ r) : r = .ok Option.none ⟨[], []⟩ := by
  cases h; rfl

/-- At the start of a statement. -/
theorem PartExt.start {α : Type} {R : Stmts → Read α → Prop} {l e : List (List Token)} {r : Read α}
    (hend : ∀ r, R ⟨[], []⟩ r → ∃ a, r = .ok a ⟨[], []⟩) (h : R (.of l) r)
    (hx : PartExt R (.of l) ((Stmts.of l).more e) e r) : PartExt R (.of l) (.of (l ++ e)) e r := by
  cases l with
  | nil => exact .inr (.inl (hend r h))
  | cons c l => exact hx

theorem Stmts.more_of {l : List (List Token)} (h : l ≠ []) (e : List (List Token)) :
    (Stmts.of l).more e = .of (l ++ e) := by
  cases l with
  | nil => exact absurd rfl h
  | cons c l => rfl

/-- An error that is found at the end of a statement. -/
theorem NodeExt.next_error {s : Stmts} {l e : List (List Token)} {x : ASTError}
    (h : NodeR (s.more e) (.error x (.of (l ++ e)))) : NodeExt s e (.error x (.of l)) := by
  cases l with
  | nil => exact .inr (.inr ⟨x, rfl, .inr h⟩)
  | cons c l => exact .inl h

theorem NodeExt.next_ok {s : Stmts} {l e : List (List Token)} {n : Node}
    (h : NodeR (s.more e) (.ok n (.of (l ++ e)))) : NodeExt s e (.ok n (.of l)) := by
  cases l with
  | nil => exact .inr (.inl ⟨n, rfl, h⟩)
  | cons c l => exact .inl h

theorem PartExt.next_error {α : Type} {R : Stmts → Read α → Prop} {s s1 : Stmts} {l e : List (List Token)}
    {x : ASTError} (h : R s1 (.error x (.of (l ++ e)))) : PartExt R s s1 e (.error x (.of l)) := by
  cases l with
  | nil => exact .inr (.inr ⟨x, rfl, h⟩)
  | cons c l => exact .inl h

theorem stop_more {close : List Keyword} {s : Stmts} {e : List (List Token)} : Stop close (s.more e) ↔ Stop close s :=
  Iff.rfl

private theorem BlockR.start {close : List Keyword} {l e : List (List Token)} {r : Read Block}
    (h : BlockR close (.of l) r) (hx : PartExt (BlockR close) (.of l) ((Stmts.of l).more e) e r) :
    BlockR close (.of (l ++ e)) (r.more e) ∨ ∃ b, r = .ok b ⟨[], []⟩ := by
  rcases PartExt.start (fun r h => ⟨_, h.at_end⟩) h hx with h1 | h1 | ⟨x, rfl, -⟩
  · exact .inl h1
  · exact .inr h1
  · exact absurd rfl (h.noError _ _)

mutual

theorem NodeR.ext {s : Stmts} {r : Read Node} (e : List (List Token)) : NodeR s r → NodeExt s e r
  | .simple h => .inl (.simple h)
  | .simpleFail (f := f) h => .inl (by cases f <;> exact .simpleFail h)
  | .hai h => .next_ok (.hai h)
  | .headFail (f := f) h => .inl (by cases f <;> exact .headFail h)
  | .headLeft h1 h2 => .next_error (.headLeft h1 h2)
  | .loop h1 h2 h3 => by
    have ih := h2.ext e
    rcases BlockR.start h2 ih with h | ⟨b, h⟩
    · exact .inl (.loop h1 h h3)
    · cases h
  | .loopPanic h1 h2 => by
    have ih := h2.ext e
    rcases BlockR.start h2 ih with h | ⟨b, h⟩
    · exact .inl (.loopPanic h1 h)
    · cases h
  | .loopEnd h1 h2 => by
    have ih := h2.ext e
    rcases BlockR.start h2 ih with h | ⟨b, h⟩
    · exact .inl (.loopEnd h1 h)
    · cases h; exact .inr (.inr ⟨_, rfl, .inl (.loop _)⟩)
  | .loopLabelEnd h1 h2 => by
    have ih := h2.ext e
    rcases BlockR.start h2 ih with h | ⟨b, h⟩
    · exact .inl (.loopLabelEnd h1 h)
    · cases h
  | .loopLabel h1 h2 h3 => by
    have ih := h2.ext e
    rcases BlockR.start h2 ih with h | ⟨b, h⟩
    · exact .inl (.loopLabel h1 h h3)
    · cases h
  | .function h1 h2 => by
    have ih := h2.ext e
    rcases BlockR.start h2 ih with h | ⟨b, h⟩
    · exact .next_ok (.function h1 h)
    · cases h
  | .functionPanic h1 h2 => by
    have ih := h2.ext e
    rcases BlockR.start h2 ih with h | ⟨b, h⟩
    · exact .inl (.functionPanic h1 h)
    · cases h
  | .functionEnd h1 h2 => by
    have ih := h2.ext e
    rcases BlockR.start h2 ih with h | ⟨b, h⟩
    · exact .inl (.functionEnd h1 h)
    · cases h; exact .inr (.inr ⟨_, rfl, .inl (.other _)⟩)
  | .functionLeft h1 h2 h3 => by
    have ih := h2.ext e
    rcases BlockR.start h2 ih with h | ⟨b, h⟩
    · exact .next_error (.functionLeft h1 h h3)
    · cases h
  | .switch h1 h2 h3 h4 => by
    have ih2 := h2.ext e
    have ih3 := h3.ext e
    rcases PartExt.start (fun r h => ⟨_, h.at_end⟩) h2 ih2 with g2 | ⟨b, g2⟩ | ⟨x, g2, -⟩
    · rcases ih3 with g3 | ⟨b, g3⟩ | ⟨x, g3, -⟩
      · exact .next_ok (.switch h1 g2 g3 h4)
      · cases g3
      · cases g3
    · cases g2; cases h3.at_end
    · cases g2
  | .switchCases (f := f) h1 h2 => by
    have ih2 := h2.ext e
    rcases PartExt.start (fun r h => ⟨_, h.at_end⟩) h2 ih2 with g2 | ⟨b, g2⟩ | ⟨x, g2, g3⟩
    · exact .inl (by rw [Fail.read_more] at *; exact .switchCases h1 g2)
    · cases f <;> cases g2
    · cases f <;> cases g2
      exact .inr (.inr ⟨_, rfl, .inr (.switchCases (f := .error _) h1 g3)⟩)
  | .switchDefault (f := f) h1 h2 h3 => by
    have ih2 := h2.ext e
    have ih3 := h3.ext e
    rcases PartExt.start (fun r h => ⟨_, h.at_end⟩) h2 ih2 with g2 | ⟨b, g2⟩ | ⟨x, g2, -⟩
    · rcases ih3 with g3 | ⟨b, g3⟩ | ⟨x, g3, g4⟩
      · exact .inl (by rw [Fail.read_more] at *; exact .switchDefault h1 g2 g3)
      · cases f <;> cases g3
      · cases f <;> cases g3
        exact .inr (.inr ⟨_, rfl, .inr (.switchDefault (f := .error _) h1 g2 g4)⟩)
    · cases g2
      cases f <;> cases h3.at_end
    · cases g2
  | .switchEnd h1 h2 h3 => by
    have ih2 := h2.ext e
    have ih3 := h3.ext e
    rcases PartExt.start (fun r h => ⟨_, h.at_end⟩) h2 ih2 with g2 | ⟨b, g2⟩ | ⟨x, g2, -⟩
    · rcases ih3 with g3 | ⟨b, g3⟩ | ⟨x, g3, -⟩
      · exact .inl (.switchEnd h1 g2 g3)
      · cases g3; exact .inr (.inr ⟨_, rfl, .inl (.other _)⟩)
      · cases g3
    · cases g2; cases h3.at_end; exact .inr (.inr ⟨_, rfl, .inl (.other _)⟩)
    · cases g2
  | .switchOther h1 h2 h3 h4 => by
    have ih2 := h2.ext e
    have ih3 := h3.ext e
    rcases PartExt.start (fun r h => ⟨_, h.at_end⟩) h2 ih2 with g2 | ⟨b, g2⟩ | ⟨x, g2, -⟩
    · rcases ih3 with g3 | ⟨b, g3⟩ | ⟨x, g3, -⟩
      · exact .inl (.switchOther h1 g2 g3 h4)
      · cases g3
      · cases g3
    · cases g2; cases h3.at_end
    · cases g2
  | .switchLeft h1 h2 h3 h4 h5 => by
    have ih2 := h2.ext e
    have ih3 := h3.ext e
    rcases PartExt.start (fun r h => ⟨_, h.at_end⟩) h2 ih2 with g2 | ⟨b, g2⟩ | ⟨x, g2, -⟩
    · rcases ih3 with g3 | ⟨b, g3⟩ | ⟨x, g3, -⟩
      · exact .next_error (.switchLeft h1 g2 g3 h4 h5)
      · cases g3
      · cases g3
    · cases g2; cases h3.at_end
    · cases g2
  | .conditional h1 h2 h3 h4 h5 => by
    have ih2 := h2.ext e
    have ih3 := h3.ext e
    have ih4 := h4.ext e
    rcases PartExt.start (fun r h => ⟨_, h.at_end⟩) h2 ih2 with g2 | ⟨b, g2⟩ | ⟨x, g2, -⟩
    · rcases ih3 with g3 | ⟨b, g3⟩ | ⟨x, g3, -⟩
      · rcases ih4 with g4 | ⟨b, g4⟩ | ⟨x, g4, -⟩
        · exact .inl (.conditional h1 g2 g3 g4 h5)
        · cases g4
        · cases g4
      · cases g3; cases h4.at_end
      · cases g3
    · cases g2; cases h3.at_end; cases h4.at_end
    · cases g2
  | .conditionalYes (f := f) h1 h2 => by
    have ih2 := h2.ext e
    rcases PartExt.start (fun r h => ⟨_, h.at_end⟩) h2 ih2 with g2 | ⟨b, g2⟩ | ⟨x, g2, g3⟩
    · exact .inl (by rw [Fail.read_more] at *; exact .conditionalYes h1 g2)
    · cases f <;> cases g2
    · cases f <;> cases g2
      exact .inr (.inr ⟨_, rfl, .inr (.conditionalYes (f := .error _) h1 g3)⟩)
  | .conditionalMaybe (f := f) h1 h2 h3 => by
    have ih2 := h2.ext e
    have ih3 := h3.ext e
    rcases PartExt.start (fun r h => ⟨_, h.at_end⟩) h2 ih2 with g2 | ⟨b, g2⟩ | ⟨x, g2, -⟩
    · rcases ih3 with g3 | ⟨b, g3⟩ | ⟨x, g3, g4⟩
      · exact .inl (by rw [Fail.read_more] at *; exact .conditionalMaybe h1 g2 g3)
      · cases f <;> cases g3
      · cases f <;> cases g3
        exact .inr (.inr ⟨_, rfl, .inr (.conditionalMaybe (f := .error _) h1 g2 g4)⟩)
    · cases g2
      cases f <;> cases h3.at_end
    · cases g2
  | .conditionalNo (f := f) h1 h2 h3 h4 => by
    have ih2 := h2.ext e
    have ih3 := h3.ext e
    have ih4 := h4.ext e
    rcases PartExt.start (fun r h => ⟨_, h.at_end⟩) h2 ih2 with g2 | ⟨b, g2⟩ | ⟨x, g2, -⟩
    · rcases ih3 with g3 | ⟨b, g3⟩ | ⟨x, g3, -⟩
      · rcases ih4 with g4 | ⟨b, g4⟩ | ⟨x, g4, g5⟩
        · exact .inl (by rw [Fail.read_more] at *; exact .conditionalNo h1 g2 g3 g4)
        · cases f <;> cases g4
        · cases f <;> cases g4
          exact .inr (.inr ⟨_, rfl, .inr (.conditionalNo (f := .error _) h1 g2 g3 g5)⟩)
      · cases g3
        cases f <;> cases h4.at_end
      · cases g3
    · cases g2; cases h3.at_end
      cases f <;> cases h4.at_end
    · cases g2
  | .conditionalEnd h1 h2 h3 h4 => by
    have ih2 := h2.ext e
    have ih3 := h3.ext e
    have ih4 := h4.ext e
    rcases PartExt.start (fun r h => ⟨_, h.at_end⟩) h2 ih2 with g2 | ⟨b, g2⟩ | ⟨x, g2, -⟩
    · rcases ih3 with g3 | ⟨b, g3⟩ | ⟨x, g3, -⟩
      · rcases ih4 with g4 | ⟨b, g4⟩ | ⟨x, g4, -⟩
        · exact .inl (.conditionalEnd h1 g2 g3 g4)
        · cases g4; exact .inr (.inr ⟨_, rfl, .inl (.other _)⟩)
        · cases g4
      · cases g3; cases h4.at_end; exact .inr (.inr ⟨_, rfl, .inl (.other _)⟩)
      · cases g3
    · cases g2; cases h3.at_end; cases h4.at_end; exact .inr (.inr ⟨_, rfl, .inl (.other _)⟩)
    · cases g2
  | .conditionalOther h1 h2 h3 h4 h5 => by
    have ih2 := h2.ext e
    have ih3 := h3.ext e
    have ih4 := h4.ext e
    rcases PartExt.start (fun r h => ⟨_, h.at_end⟩) h2 ih2 with g2 | ⟨b, g2⟩ | ⟨x, g2, -⟩
    · rcases ih3 with g3 | ⟨b, g3⟩ | ⟨x, g3, -⟩
      · rcases ih4 with g4 | ⟨b, g4⟩ | ⟨x, g4, -⟩
        · exact .inl (.conditionalOther h1 g2 g3 g4 h5)
        · cases g4
        · cases g4
      · cases g3; cases h4.at_end
      · cases g3
    · cases g2; cases h3.at_end; cases h4.at_end
    · cases g2

theorem OmgsR.ext {s : Stmts} {r : Read (List WtfOmg)} (e : List (List Token)) :
    OmgsR s r → PartExt OmgsR s (s.more e) e r
  | .nil h => .inl (.nil h)
  | .valueEnd h => .inl (.valueEnd h)
  | .value (f := f) h1 h2 => .inl (by cases f <;> exact .value h1 h2)
  | .left h1 h2 h3 h4 => .next_error (.left h1 h2 h3 h4)
  | .body h1 h2 h3 => by
    have ih := h3.ext e
    rcases BlockR.start h3 ih with h | ⟨b, h⟩
    · exact .inl (.body h1 h2 h)
    · cases h
  | .cons (r := r) h1 h2 h3 h4 => by
    have ih := h3.ext e
    have ih4 := h4.ext e
    rcases BlockR.start h3 ih with h | ⟨b, h⟩
    · rcases ih4 with g | ⟨a, rfl⟩ | ⟨x, rfl, g⟩
      · exact .inl (by rw [Read.more_map]; exact .cons h1 h2 h g)
      · exact .inr (.inl ⟨_, rfl⟩)
      · exact .inr (.inr ⟨x, rfl, .cons (r := .error x _) h1 h2 h g⟩)
    · cases h; cases h4.at_end
      exact .inr (.inl ⟨_, rfl⟩)

theorem OmgWtfR.ext {s : Stmts} {r : Read (Option WtfOmgWtf)} (e : List (List Token)) :
    OmgWtfR s r → PartExt OmgWtfR s (s.more e) e r
  | .none h => .inl (.none h)
  | .left h1 h2 => .next_error (.left h1 h2)
  | .some h1 h2 => by
    have ih := h2.ext e
    rcases BlockR.start h2 ih with h | ⟨b, rfl⟩
    · exact .inl (by rw [Read.more_map]; exact .some h1 h)
    · exact .inr (.inl ⟨_, rfl⟩)

theorem YaRlyR.ext {s : Stmts} {r : Read (Option YaRly)} (e : List (List Token)) :
    YaRlyR s r → PartExt YaRlyR s (s.more e) e r
  | .none h => .inl (.none h)
  | .left h1 h2 => .next_error (.left h1 h2)
  | .some h1 h2 => by
    have ih := h2.ext e
    rcases BlockR.start h2 ih with h | ⟨b, rfl⟩
    · exact .inl (by rw [Read.more_map]; exact .some h1 h)
    · exact .inr (.inl ⟨_, rfl⟩)

theorem MebbesR.ext {s : Stmts} {r : Read (List Mebbe)} (e : List (List Token)) :
    MebbesR s r → PartExt MebbesR s (s.more e) e r
  | .nil h => .inl (.nil h)
  | .valueEnd h => .inl (.valueEnd h)
  | .value (f := f) h1 h2 => .inl (by cases f <;> exact .value h1 h2)
  | .left h1 h2 h3 h4 => .next_error (.left h1 h2 h3 h4)
  | .body h1 h2 h3 => by
    have ih := h3.ext e
    rcases BlockR.start h3 ih with h | ⟨b, h⟩
    · exact .inl (.body h1 h2 h)
    · cases h
  | .cons (r := r) h1 h2 h3 h4 => by
    have ih := h3.ext e
    have ih4 := h4.ext e
    rcases BlockR.start h3 ih with h | ⟨b, h⟩
    · rcases ih4 with g | ⟨a, rfl⟩ | ⟨x, rfl, g⟩
      · exact .inl (by rw [Read.more_map]; exact .cons h1 h2 h g)
      · exact .inr (.inl ⟨_, rfl⟩)
      · exact .inr (.inr ⟨x, rfl, .cons (r := .error x _) h1 h2 h g⟩)
    · cases h; cases h4.at_end
      exact .inr (.inl ⟨_, rfl⟩)

theorem NoWaiR.ext {s : Stmts} {r : Read (Option NoWai)} (e : List (List Token)) :
    NoWaiR s r → PartExt NoWaiR s (s.more e) e r
  | .none h => .inl (.none h)
  | .left h1 h2 => .next_error (.left h1 h2)
  | .some h1 h2 => by
    have ih := h2.ext e
    rcases BlockR.start h2 ih with h | ⟨b, rfl⟩
    · exact .inl (by rw [Read.more_map]; exact .some h1 h)
    · exact .inr (.inl ⟨_, rfl⟩)

theorem StepR.ext {s : Stmts} {r : Read Block} (e : List (List Token)) : StepR s r → StepExt s e r
  | .empty (l := l) => by
    cases l with
    | nil => exact .inr ⟨[], rfl, .inl ⟨[], _, .empty⟩⟩
    | cons c l => exact .inl .empty
  | .ok (rest := rest) (l := l) h => by
    rcases h.ext e with h1 | ⟨n, h1, h2⟩ | ⟨x, h1, -⟩
    · cases l with
      | nil => exact .inr ⟨_, rfl, .inl ⟨[], .of e, by rw [List.append_nil]; exact .ok h1⟩⟩
      | cons c l => exact .inl (.ok h1)
    · cases h1
      exact .inr ⟨_, rfl, .inl ⟨leftoverNodes (Stmts.of e).cur, .of (Stmts.of e).later, .ok h2⟩⟩
    · cases h1
  | .error (rest := rest) (l := l) h => by
    rcases h.ext e with h1 | ⟨n, h1, h2⟩ | ⟨x, h1, h2⟩
    · cases l with
      | nil => exact .inr ⟨_, rfl, .inl ⟨[], .of e, by rw [List.append_nil]; exact .error h1⟩⟩
      | cons c l => exact .inl (.error h1)
    · cases h1
    · cases h1
      rcases h2 with h2 | h2
      · exact .inr ⟨_, rfl, .inr ⟨_, rfl, h2⟩⟩
      · exact .inr ⟨_, rfl, .inl ⟨leftoverNodes (Stmts.of e).cur, .of (Stmts.of e).later, .error h2⟩⟩
  | .panic h => by
    rcases h.ext e with h1 | ⟨n, h1, h2⟩ | ⟨x, h1, -⟩
    · exact .inl (.panic h1)
    · cases h1
    · cases h1

theorem BlockR.ext {close : List Keyword} {s : Stmts} {r : Read Block} (e : List (List Token)) :
    BlockR close s r → PartExt (BlockR close) s (s.more e) e r
  | .last h hs => by
    rcases h.ext e with h1 | ⟨nodes, h1, -⟩
    · exact .inl (.last h1 hs)
    · cases h1; exact .inr (.inl ⟨_, rfl⟩)
  | .more h hs hb => by
    have ih := hb.ext e
    rcases h.ext e with h1 | ⟨nodes, h1, -⟩
    · rcases ih with h2 | ⟨b, rfl⟩ | ⟨x, rfl, -⟩
      · exact .inl (by rw [Read.more_map]; exact .more h1 hs h2)
      · exact .inr (.inl ⟨_, rfl⟩)
      · exact absurd rfl (hb.noError _ _)
    · cases h1; exact absurd (.inl rfl) hs
  | .panic h => by
    rcases h.ext e with h1 | ⟨nodes, h1, -⟩
    · exact .inl (.panic h1)
    · cases h1

end

/-- A block with more statements at the end. -/
theorem BlockR.append {close : List Keyword} {s : Stmts} {r : Read Block} (e : List (List Token)) :
    BlockR close s r → ∀ tree s', r = .ok tree s' → ∀ tree' s'', BlockR close (s.more e) (.ok tree' s'') →
      (∃ rest, tree' = tree ++ rest) ∨
      ∃ pre x rest, tree = pre ++ [.astError x] ∧ x.Unclosed ∧ tree' = pre ++ rest
  | .last (nodes := nodes) h hs => by
    intro tree s' hr tree' s'' h'
    cases hr
    have same : ∀ s1, StepR (s.more e) (.ok nodes s1) → ∃ rest, tree' = nodes ++ rest := by
      intro s1 h1
      generalize hr' : Read.ok tree' s'' = r' at h'
      cases h' with
      | last h2 => cases h1.det h2; cases hr'; exact ⟨[], by simp⟩
      | @more _ _ nodes s2 r2 h2 _ h3 =>
        cases h1.det h2
        cases r2 <;> cases hr'
        exact ⟨_, rfl⟩
      | panic => cases hr'
    rcases h.ext e with h1 | ⟨nodes, h1, h2 | h2⟩
    · exact .inl (same _ h1)
    · cases h1
      obtain ⟨more, s1, h2⟩ := h2
      generalize hr' : Read.ok tree' s'' = r' at h'
      cases h' with
      | last h3 => cases h2.det h3; cases hr'; exact .inl ⟨more, rfl⟩
      | @more _ _ nodes s2 r2 h3 _ h4 =>
        cases h2.det h3
        cases r2 <;> cases hr'
        exact .inl ⟨_, List.append_assoc _ _ _⟩
      | panic => cases hr'
    · cases h1
      obtain ⟨x, rfl, hx⟩ := h2
      exact .inr ⟨[], x, tree', rfl, hx, rfl⟩
  | .more (nodes := nodes) (s' := s1) (r := r) h hs hb => by
    have ih := hb.append e
    intro tree s' hr tree' s'' h'
    cases r with
    | ok b s2 =>
      cases hr
      rcases h.ext e with h1 | ⟨_, h1, -⟩
      · generalize hr' : Read.ok tree' s'' = r' at h'
        cases h' with
        | last h3 hs3 => cases h1.det h3; exact absurd hs3 hs
        | @more _ _ nodes s2 r2 h3 _ h4 =>
          cases h1.det h3
          cases r2 <;> cases hr'
          rcases ih _ _ rfl _ _ h4 with ⟨rest, rfl⟩ | ⟨pre, x, rest, rfl, hx, rfl⟩
          · exact .inl ⟨rest, by simp⟩
          · exact .inr ⟨nodes ++ pre, x, rest, by simp, hx, by simp⟩
        | panic => cases hr'
      · cases h1; exact absurd (.inl rfl) hs
    | error => cases hr
    | panic => cases hr
  | .panic h => by intro _ _ hr; cases hr

end Lol
