import Verif.Parser.AppendLemmas

/-!
# Lemmas: what can follow a program

The lemmas of `AppendLemmas` again, for all statements that are added at once: how the last statement is read does not
depend on what follows.
-/

namespace Lol

/-- A part is read in the same way whatever is at the end; or it was read up to the end. -/
def PartExtU {α : Type} (R : Stmts → Read α → Prop) (s : List (List Token) → Stmts) (r : Read α) : Prop :=
  (∀ e, R (s e) (r.more e)) ∨ (∃ a, r = .ok a ⟨[], []⟩) ∨ ∃ x, r = .error x ⟨[], []⟩ ∧ ∀ e, R (s e) (.error x (.of e))

/-- The same for a statement. -/
def NodeExtU (s : Stmts) (r : Read Node) : Prop :=
  (∀ e, NodeR (s.more e) (r.more e)) ∨ (∃ n, r = .ok n ⟨[], []⟩ ∧ ∀ e, NodeR (s.more e) (.ok n (.of e))) ∨
    ∃ x, r = .error x ⟨[], []⟩ ∧ (x.Unclosed ∨ ∀ e, NodeR (s.more e) (.error x (.of e)))

theorem PartExtU.start {α : Type} {R : Stmts → Read α → Prop} {l : List (List Token)} {r : Read α}
    (hend : ∀ r, R ⟨[], []⟩ r → ∃ a, r = .ok a ⟨[], []⟩) (h : R (.of l) r)
    (hx : PartExtU R (Stmts.of l).more r) : PartExtU R (fun e => .of (l ++ e)) r := by
  cases l with
  | nil => exact .inr (.inl (hend r h))
  | cons c l => exact hx

theorem NodeExtU.next_error {s : Stmts} {l : List (List Token)} {x : ASTError}
    (h : ∀ e, NodeR (s.more e) (.error x (.of (l ++ e)))) : NodeExtU s (.error x (.of l)) := by
  cases l with
  | nil => exact .inr (.inr ⟨x, rfl, .inr h⟩)
  | cons c l => exact .inl h

theorem NodeExtU.next_ok {s : Stmts} {l : List (List Token)} {n : Node}
    (h : ∀ e, NodeR (s.more e) (.ok n (.of (l ++ e)))) : NodeExtU s (.ok n (.of l)) := by
  cases l with
  | nil => exact .inr (.inl ⟨n, rfl, h⟩)
  | cons c l => exact .inl h

theorem PartExtU.next_error {α : Type} {R : Stmts → Read α → Prop} {s : List (List Token) → Stmts}
    {l : List (List Token)} {x : ASTError} (h : ∀ e, R (s e) (.error x (.of (l ++ e)))) :
    PartExtU R s (.error x (.of l)) := by
  cases l with
  | nil => exact .inr (.inr ⟨x, rfl, h⟩)
  | cons c l => exact .inl h

private theorem BlockR.ustart {close : List Keyword} {l : List (List Token)} {r : Read Block}
    (h : BlockR close (.of l) r) (hx : PartExtU (BlockR close) (Stmts.of l).more r) :
    (∀ e, BlockR close (.of (l ++ e)) (r.more e)) ∨ ∃ b, r = .ok b ⟨[], []⟩ := by
  rcases PartExtU.start (fun r h => ⟨_, h.at_end⟩) h hx with h1 | h1 | ⟨x, rfl, -⟩
  · exact .inl h1
  · exact .inr h1
  · exact absurd rfl (h.noError _ _)

/-- What the statement that is read last does with what follows: it is left to be read, or the first statement of it is
taken, or a construct is not closed. -/
def LastStep (s : Stmts) (nodes : Block) : Prop :=
  (∀ e, StepR (s.more e) (.ok nodes (.of e))) ∨
  (∀ e, StepR (s.more e) (.ok (nodes ++ leftoverNodes (Stmts.of e).cur) (.of (Stmts.of e).later))) ∨
  ∃ x, nodes = [.astError x] ∧ x.Unclosed

/-- The same for a statement of a block. -/
def StepExtU (s : Stmts) (r : Read Block) : Prop :=
  (∀ e, StepR (s.more e) (r.more e)) ∨ ∃ nodes, r = .ok nodes ⟨[], []⟩ ∧ LastStep s nodes

mutual

theorem NodeR.uext {s : Stmts} {r : Read Node} : NodeR s r → NodeExtU s r
  | .simple h => .inl fun _ => .simple h
  | .simpleFail (f := f) h => .inl fun _ => by cases f <;> exact .simpleFail h
  | .hai h => .next_ok fun _ => .hai h
  | .headFail (f := f) h => .inl fun _ => by cases f <;> exact .headFail h
  | .headLeft h1 h2 => .next_error fun _ => .headLeft h1 h2
  | .loop h1 h2 h3 => by
    have ih := h2.uext
    rcases BlockR.ustart h2 ih with h | ⟨b, h⟩
    · exact .inl fun e => .loop h1 (h e) h3
    · cases h
  | .loopPanic h1 h2 => by
    have ih := h2.uext
    rcases BlockR.ustart h2 ih with h | ⟨b, h⟩
    · exact .inl fun e => .loopPanic h1 (h e)
    · cases h
  | .loopEnd h1 h2 => by
    have ih := h2.uext
    rcases BlockR.ustart h2 ih with h | ⟨b, h⟩
    · exact .inl fun e => .loopEnd h1 (h e)
    · cases h; exact .inr (.inr ⟨_, rfl, .inl (.loop _)⟩)
  | .loopLabelEnd h1 h2 => by
    have ih := h2.uext
    rcases BlockR.ustart h2 ih with h | ⟨b, h⟩
    · exact .inl fun e => .loopLabelEnd h1 (h e)
    · cases h
  | .loopLabel h1 h2 h3 => by
    have ih := h2.uext
    rcases BlockR.ustart h2 ih with h | ⟨b, h⟩
    · exact .inl fun e => .loopLabel h1 (h e) h3
    · cases h
  | .function h1 h2 => by
    have ih := h2.uext
    rcases BlockR.ustart h2 ih with h | ⟨b, h⟩
    · exact .next_ok fun e => .function h1 (h e)
    · cases h
  | .functionPanic h1 h2 => by
    have ih := h2.uext
    rcases BlockR.ustart h2 ih with h | ⟨b, h⟩
    · exact .inl fun e => .functionPanic h1 (h e)
    · cases h
  | .functionEnd h1 h2 => by
    have ih := h2.uext
    rcases BlockR.ustart h2 ih with h | ⟨b, h⟩
    · exact .inl fun e => .functionEnd h1 (h e)
    · cases h; exact .inr (.inr ⟨_, rfl, .inl (.other _)⟩)
  | .functionLeft h1 h2 h3 => by
    have ih := h2.uext
    rcases BlockR.ustart h2 ih with h | ⟨b, h⟩
    · exact .next_error fun e => .functionLeft h1 (h e) h3
    · cases h
  | .switch h1 h2 h3 h4 => by
    have ih2 := h2.uext
    have ih3 := h3.uext
    rcases PartExtU.start (fun r h => ⟨_, h.at_end⟩) h2 ih2 with g2 | ⟨b, g2⟩ | ⟨x, g2, -⟩
    · rcases ih3 with g3 | ⟨b, g3⟩ | ⟨x, g3, -⟩
      · exact .next_ok fun e => .switch h1 (g2 e) (g3 e) h4
      · cases g3
      · cases g3
    · cases g2; cases h3.at_end
    · cases g2
  | .switchCases (f := f) h1 h2 => by
    have ih2 := h2.uext
    rcases PartExtU.start (fun r h => ⟨_, h.at_end⟩) h2 ih2 with g2 | ⟨b, g2⟩ | ⟨x, g2, g3⟩
    · exact .inl fun e => by simp only [Fail.read_more] at *; exact .switchCases h1 (g2 e)
    · cases f <;> cases g2
    · cases f <;> cases g2
      exact .inr (.inr ⟨_, rfl, .inr fun e => .switchCases (f := .error _) h1 (g3 e)⟩)
  | .switchDefault (f := f) h1 h2 h3 => by
    have ih2 := h2.uext
    have ih3 := h3.uext
    rcases PartExtU.start (fun r h => ⟨_, h.at_end⟩) h2 ih2 with g2 | ⟨b, g2⟩ | ⟨x, g2, -⟩
    · rcases ih3 with g3 | ⟨b, g3⟩ | ⟨x, g3, g4⟩
      · exact .inl fun e => by simp only [Fail.read_more] at *; exact .switchDefault h1 (g2 e) (g3 e)
      · cases f <;> cases g3
      · cases f <;> cases g3
        exact .inr (.inr ⟨_, rfl, .inr fun e => .switchDefault (f := .error _) h1 (g2 e) (g4 e)⟩)
    · cases g2
      cases f <;> cases h3.at_end
    · cases g2
  | .switchEnd h1 h2 h3 => by
    have ih2 := h2.uext
    have ih3 := h3.uext
    rcases PartExtU.start (fun r h => ⟨_, h.at_end⟩) h2 ih2 with g2 | ⟨b, g2⟩ | ⟨x, g2, -⟩
    · rcases ih3 with g3 | ⟨b, g3⟩ | ⟨x, g3, -⟩
      · exact .inl fun e => .switchEnd h1 (g2 e) (g3 e)
      · cases g3; exact .inr (.inr ⟨_, rfl, .inl (.other _)⟩)
      · cases g3
    · cases g2; cases h3.at_end; exact .inr (.inr ⟨_, rfl, .inl (.other _)⟩)
    · cases g2
  | .switchOther h1 h2 h3 h4 => by
    have ih2 := h2.uext
    have ih3 := h3.uext
    rcases PartExtU.start (fun r h => ⟨_, h.at_end⟩) h2 ih2 with g2 | ⟨b, g2⟩ | ⟨x, g2, -⟩
    · rcases ih3 with g3 | ⟨b, g3⟩ | ⟨x, g3, -⟩
      · exact .inl fun e => .switchOther h1 (g2 e) (g3 e) h4
      · cases g3
      · cases g3
    · cases g2; cases h3.at_end
    · cases g2
  | .switchLeft h1 h2 h3 h4 h5 => by
    have ih2 := h2.uext
    have ih3 := h3.uext
    rcases PartExtU.start (fun r h => ⟨_, h.at_end⟩) h2 ih2 with g2 | ⟨b, g2⟩ | ⟨x, g2, -⟩
    · rcases ih3 with g3 | ⟨b, g3⟩ | ⟨x, g3, -⟩
      · exact .next_error fun e => .switchLeft h1 (g2 e) (g3 e) h4 h5
      · cases g3
      · cases g3
    · cases g2; cases h3.at_end
    · cases g2
  | .conditional h1 h2 h3 h4 h5 => by
    have ih2 := h2.uext
    have ih3 := h3.uext
    have ih4 := h4.uext
    rcases PartExtU.start (fun r h => ⟨_, h.at_end⟩) h2 ih2 with g2 | ⟨b, g2⟩ | ⟨x, g2, -⟩
    · rcases ih3 with g3 | ⟨b, g3⟩ | ⟨x, g3, -⟩
      · rcases ih4 with g4 | ⟨b, g4⟩ | ⟨x, g4, -⟩
        · exact .inl fun e => .conditional h1 (g2 e) (g3 e) (g4 e) h5
        · cases g4
        · cases g4
      · cases g3; cases h4.at_end
      · cases g3
    · cases g2; cases h3.at_end; cases h4.at_end
    · cases g2
  | .conditionalYes (f := f) h1 h2 => by
    have ih2 := h2.uext
    rcases PartExtU.start (fun r h => ⟨_, h.at_end⟩) h2 ih2 with g2 | ⟨b, g2⟩ | ⟨x, g2, g3⟩
    · exact .inl fun e => by simp only [Fail.read_more] at *; exact .conditionalYes h1 (g2 e)
    · cases f <;> cases g2
    · cases f <;> cases g2
      exact .inr (.inr ⟨_, rfl, .inr fun e => .conditionalYes (f := .error _) h1 (g3 e)⟩)
  | .conditionalMaybe (f := f) h1 h2 h3 => by
    have ih2 := h2.uext
    have ih3 := h3.uext
    rcases PartExtU.start (fun r h => ⟨_, h.at_end⟩) h2 ih2 with g2 | ⟨b, g2⟩ | ⟨x, g2, -⟩
    · rcases ih3 with g3 | ⟨b, g3⟩ | ⟨x, g3, g4⟩
      · exact .inl fun e => by simp only [Fail.read_more] at *; exact .conditionalMaybe h1 (g2 e) (g3 e)
      · cases f <;> cases g3
      · cases f <;> cases g3
        exact .inr (.inr ⟨_, rfl, .inr fun e => .conditionalMaybe (f := .error _) h1 (g2 e) (g4 e)⟩)
    · cases g2
      cases f <;> cases h3.at_end
    · cases g2
  | .conditionalNo (f := f) h1 h2 h3 h4 => by
    have ih2 := h2.uext
    have ih3 := h3.uext
    have ih4 := h4.uext
    rcases PartExtU.start (fun r h => ⟨_, h.at_end⟩) h2 ih2 with g2 | ⟨b, g2⟩ | ⟨x, g2, -⟩
    · rcases ih3 with g3 | ⟨b, g3⟩ | ⟨x, g3, -⟩
      · rcases ih4 with g4 | ⟨b, g4⟩ | ⟨x, g4, g5⟩
        · exact .inl fun e => by simp only [Fail.read_more] at *; exact .conditionalNo h1 (g2 e) (g3 e) (g4 e)
        · cases f <;> cases g4
        · cases f <;> cases g4
          exact .inr (.inr ⟨_, rfl, .inr fun e => .conditionalNo (f := .error _) h1 (g2 e) (g3 e) (g5 e)⟩)
      · cases g3
        cases f <;> cases h4.at_end
      · cases g3
    · cases g2; cases h3.at_end
      cases f <;> cases h4.at_end
    · cases g2
  | .conditionalEnd h1 h2 h3 h4 => by
    have ih2 := h2.uext
    have ih3 := h3.uext
    have ih4 := h4.uext
    rcases PartExtU.start (fun r h => ⟨_, h.at_end⟩) h2 ih2 with g2 | ⟨b, g2⟩ | ⟨x, g2, -⟩
    · rcases ih3 with g3 | ⟨b, g3⟩ | ⟨x, g3, -⟩
      · rcases ih4 with g4 | ⟨b, g4⟩ | ⟨x, g4, -⟩
        · exact .inl fun e => .conditionalEnd h1 (g2 e) (g3 e) (g4 e)
        · cases g4; exact .inr (.inr ⟨_, rfl, .inl (.other _)⟩)
        · cases g4
      · cases g3; cases h4.at_end; exact .inr (.inr ⟨_, rfl, .inl (.other _)⟩)
      · cases g3
    · cases g2; cases h3.at_end; cases h4.at_end; exact .inr (.inr ⟨_, rfl, .inl (.other _)⟩)
    · cases g2
  | .conditionalOther h1 h2 h3 h4 h5 => by
    have ih2 := h2.uext
    have ih3 := h3.uext
    have ih4 := h4.uext
    rcases PartExtU.start (fun r h => ⟨_, h.at_end⟩) h2 ih2 with g2 | ⟨b, g2⟩ | ⟨x, g2, -⟩
    · rcases ih3 with g3 | ⟨b, g3⟩ | ⟨x, g3, -⟩
      · rcases ih4 with g4 | ⟨b, g4⟩ | ⟨x, g4, -⟩
        · exact .inl fun e => .conditionalOther h1 (g2 e) (g3 e) (g4 e) h5
        · cases g4
        · cases g4
      · cases g3; cases h4.at_end
      · cases g3
    · cases g2; cases h3.at_end; cases h4.at_end
    · cases g2

theorem OmgsR.uext {s : Stmts} {r : Read (List WtfOmg)} :
    OmgsR s r → PartExtU OmgsR s.more r
  | .nil h => .inl fun _ => .nil h
  | .valueEnd h => .inl fun _ => .valueEnd h
  | .value (f := f) h1 h2 => .inl fun _ => by cases f <;> exact .value h1 h2
  | .left h1 h2 h3 h4 => .next_error fun _ => .left h1 h2 h3 h4
  | .body h1 h2 h3 => by
    have ih := h3.uext
    rcases BlockR.ustart h3 ih with h | ⟨b, h⟩
    · exact .inl fun e => .body h1 h2 (h e)
    · cases h
  | .cons (r := r) h1 h2 h3 h4 => by
    have ih := h3.uext
    have ih4 := h4.uext
    rcases BlockR.ustart h3 ih with h | ⟨b, h⟩
    · rcases ih4 with g | ⟨a, rfl⟩ | ⟨x, rfl, g⟩
      · exact .inl fun e => by rw [Read.more_map]; exact .cons h1 h2 (h e) (g e)
      · exact .inr (.inl ⟨_, rfl⟩)
      · exact .inr (.inr ⟨x, rfl, fun e => .cons (r := .error x _) h1 h2 (h e) (g e)⟩)
    · cases h; cases h4.at_end
      exact .inr (.inl ⟨_, rfl⟩)

theorem OmgWtfR.uext {s : Stmts} {r : Read (Option WtfOmgWtf)} :
    OmgWtfR s r → PartExtU OmgWtfR s.more r
  | .none h => .inl fun _ => .none h
  | .left h1 h2 => .next_error fun _ => .left h1 h2
  | .some h1 h2 => by
    have ih := h2.uext
    rcases BlockR.ustart h2 ih with h | ⟨b, rfl⟩
    · exact .inl fun e => by rw [Read.more_map]; exact .some h1 (h e)
    · exact .inr (.inl ⟨_, rfl⟩)

theorem YaRlyR.uext {s : Stmts} {r : Read (Option YaRly)} :
    YaRlyR s r → PartExtU YaRlyR s.more r
  | .none h => .inl fun _ => .none h
  | .left h1 h2 => .next_error fun _ => .left h1 h2
  | .some h1 h2 => by
    have ih := h2.uext
    rcases BlockR.ustart h2 ih with h | ⟨b, rfl⟩
    · exact .inl fun e => by rw [Read.more_map]; exact .some h1 (h e)
    · exact .inr (.inl ⟨_, rfl⟩)

theorem MebbesR.uext {s : Stmts} {r : Read (List Mebbe)} :
    MebbesR s r → PartExtU MebbesR s.more r
  | .nil h => .inl fun _ => .nil h
  | .valueEnd h => .inl fun _ => .valueEnd h
  | .value (f := f) h1 h2 => .inl fun _ => by cases f <;> exact .value h1 h2
  | .left h1 h2 h3 h4 => .next_error fun _ => .left h1 h2 h3 h4
  | .body h1 h2 h3 => by
    have ih := h3.uext
    rcases BlockR.ustart h3 ih with h | ⟨b, h⟩
    · exact .inl fun e => .body h1 h2 (h e)
    · cases h
  | .cons (r := r) h1 h2 h3 h4 => by
    have ih := h3.uext
    have ih4 := h4.uext
    rcases BlockR.ustart h3 ih with h | ⟨b, h⟩
    · rcases ih4 with g | ⟨a, rfl⟩ | ⟨x, rfl, g⟩
      · exact .inl fun e => by rw [Read.more_map]; exact .cons h1 h2 (h e) (g e)
      · exact .inr (.inl ⟨_, rfl⟩)
      · exact .inr (.inr ⟨x, rfl, fun e => .cons (r := .error x _) h1 h2 (h e) (g e)⟩)
    · cases h; cases h4.at_end
      exact .inr (.inl ⟨_, rfl⟩)

theorem NoWaiR.uext {s : Stmts} {r : Read (Option NoWai)} :
    NoWaiR s r → PartExtU NoWaiR s.more r
  | .none h => .inl fun _ => .none h
  | .left h1 h2 => .next_error fun _ => .left h1 h2
  | .some h1 h2 => by
    have ih := h2.uext
    rcases BlockR.ustart h2 ih with h | ⟨b, rfl⟩
    · exact .inl fun e => by rw [Read.more_map]; exact .some h1 (h e)
    · exact .inr (.inl ⟨_, rfl⟩)

theorem StepR.uext {s : Stmts} {r : Read Block} : StepR s r → StepExtU s r
  | .empty (l := l) => by
    cases l with
    | nil => exact .inr ⟨[], rfl, .inl fun _ => .empty⟩
    | cons c l => exact .inl fun _ => .empty
  | .ok (rest := rest) (l := l) h => by
    rcases h.uext with h1 | ⟨n, h1, h2⟩ | ⟨x, h1, -⟩
    · cases l with
      | nil => exact .inr ⟨_, rfl, .inl fun e => .ok (h1 e)⟩
      | cons c l => exact .inl fun e => .ok (h1 e)
    · cases h1
      exact .inr ⟨_, rfl, .inr (.inl fun e => .ok (h2 e))⟩
    · cases h1
  | .error (rest := rest) (l := l) h => by
    rcases h.uext with h1 | ⟨n, h1, h2⟩ | ⟨x, h1, h2⟩
    · cases l with
      | nil => exact .inr ⟨_, rfl, .inl fun e => .error (h1 e)⟩
      | cons c l => exact .inl fun e => .error (h1 e)
    · cases h1
    · cases h1
      rcases h2 with h2 | h2
      · exact .inr ⟨_, rfl, .inr (.inr ⟨_, rfl, h2⟩)⟩
      · exact .inr ⟨_, rfl, .inr (.inl fun e => .error (h2 e))⟩
  | .panic h => by
    rcases h.uext with h1 | ⟨n, h1, h2⟩ | ⟨x, h1, -⟩
    · exact .inl fun e => .panic (h1 e)
    · cases h1
    · cases h1

theorem BlockR.uext {close : List Keyword} {s : Stmts} {r : Read Block} :
    BlockR close s r → PartExtU (BlockR close) s.more r
  | .last h hs => by
    rcases h.uext with h1 | ⟨nodes, h1, -⟩
    · exact .inl fun e => .last (h1 e) hs
    · cases h1; exact .inr (.inl ⟨_, rfl⟩)
  | .more h hs hb => by
    have ih := hb.uext
    rcases h.uext with h1 | ⟨nodes, h1, -⟩
    · rcases ih with h2 | ⟨b, rfl⟩ | ⟨x, rfl, -⟩
      · exact .inl fun e => by rw [Read.more_map]; exact .more (h1 e) hs (h2 e)
      · exact .inr (.inl ⟨_, rfl⟩)
      · exact absurd rfl (hb.noError _ _)
    · cases h1; exact absurd (.inl rfl) hs
  | .panic h => by
    rcases h.uext with h1 | ⟨nodes, h1, -⟩
    · exact .inl fun e => .panic (h1 e)
    · cases h1

end

theorem Read.map_map {α β γ : Type} (r : Read α) (f : α → β) (g : β → γ) : (r.map f).map g = r.map (g ∘ f) := by
  cases r <;> rfl

/-- The block goes on with what follows. -/
def GoesOn (close : List Keyword) (s : Stmts) (tree : Block) : Prop :=
  (∀ e, Stop close (.of e) → BlockR close (s.more e) (.ok tree (.of e))) ∧
  ∀ e r, ¬ Stop close (.of e) → BlockR close (.of e) r → BlockR close (s.more e) (r.map (tree ++ ·))

/-- The block takes the first statement of what follows, and then goes on. -/
def TakesOne (close : List Keyword) (s : Stmts) (tree : Block) : Prop :=
  (∀ e, Stop close (.of (Stmts.of e).later) →
    BlockR close (s.more e) (.ok (tree ++ leftoverNodes (Stmts.of e).cur) (.of (Stmts.of e).later))) ∧
  ∀ e r, ¬ Stop close (.of (Stmts.of e).later) → BlockR close (.of (Stmts.of e).later) r →
    BlockR close (s.more e) (r.map (tree ++ leftoverNodes (Stmts.of e).cur ++ ·))

/-- The block has come to an end. -/
def HasStopped (close : List Keyword) (s : Stmts) (tree : Block) (s' : Stmts) : Prop :=
  ∀ e, BlockR close (s.more e) (.ok tree (s'.more e))

/-- What a block does with what follows it. -/
theorem BlockR.kinds {close : List Keyword} {s : Stmts} {r : Read Block} :
    BlockR close s r → ∀ tree s', r = .ok tree s' → GoesOn close s tree ∨ TakesOne close s tree ∨
      HasStopped close s tree s' ∨ ∃ pre x, tree = pre ++ [.astError x] ∧ x.Unclosed
  | .last (nodes := nodes) h hs => by
    intro tree s' hr
    cases hr
    rcases h.uext with h1 | ⟨_, h1, h2 | h2 | h2⟩
    · exact .inr (.inr (.inl fun e => .last (h1 e) hs))
    · cases h1
      exact .inl ⟨fun e he => .last (h2 e) he, fun e r he hb => .more (h2 e) he hb⟩
    · cases h1
      exact .inr (.inl ⟨fun e he => .last (h2 e) he, fun e r he hb => .more (h2 e) he hb⟩)
    · obtain ⟨x, rfl, hx⟩ := h2
      cases h1
      exact .inr (.inr (.inr ⟨[], x, rfl, hx⟩))
  | .more (nodes := nodes) (s' := s1) (r := r) h hs hb => by
    have ih := hb.kinds
    intro tree s' hr
    cases r with
    | ok b s2 =>
      cases hr
      rcases h.uext with h1 | ⟨_, h1, -⟩
      · rcases ih _ _ rfl with h2 | h2 | h2 | ⟨pre, x, rfl, hx⟩
        · refine .inl ⟨fun e he => .more (h1 e) hs (h2.1 e he), fun e r he hb => ?_⟩
          have := BlockR.more (h1 e) hs (h2.2 e r he hb)
          rw [Read.map_map] at this
          simpa only [Function.comp_def, List.append_assoc] using this
        · refine .inr (.inl ⟨fun e he => ?_, fun e r he hb => ?_⟩)
          · rw [List.append_assoc]
            exact .more (h1 e) hs (h2.1 e he)
          · have := BlockR.more (h1 e) hs (h2.2 e r he hb)
            rw [Read.map_map] at this
            simpa only [Function.comp_def, List.append_assoc] using this
        · exact .inr (.inr (.inl fun e => .more (h1 e) hs (h2 e)))
        · exact .inr (.inr (.inr ⟨nodes ++ pre, x, by simp, hx⟩))
      · cases h1; exact absurd (.inl rfl) hs
    | error => cases hr
    | panic => cases hr
  | .panic h => by intro _ _ hr; cases hr

end Lol
