import Verif.Parser.JoinLemmas
import Verif.Parser.EditLemmas
import Verif.Parser.ConstructLemmas

/-! # Lemmas: a program with errors of its own, read in a block -/

namespace Lol

/-- A keyword that ends a block, or opens a part of a construct, is the first word of a statement, and it is unexpected
in the tree. -/
def StrayIn (L : List (List Token)) (tree : Block) : Prop :=
  ∃ k ∈ partKeywords, (∃ st ∈ L, ¬ NotFirst k st) ∧ ∃ t, t.Is k ∧ .astError (.unexpectedToken t) ∈ tree

theorem StrayIn.mono {L : List (List Token)} {tree tree' : Block} (h : StrayIn L tree) (hs : ∀ n ∈ tree, n ∈ tree') :
    StrayIn L tree' := by
  obtain ⟨k, hk, h1, t, h2, h3⟩ := h
  exact ⟨k, hk, h1, t, h2, hs _ h3⟩

theorem BlockR.stray {t : Token} {c : List Token} {l : List (List Token)} {k : Keyword} (hk : k ∈ partKeywords)
    (ht : t.Is k) {close : List Keyword} {b : Block} {s' : Stmts} {start : Stmts}
    (hl : Stmts.Le ⟨t :: c, l⟩ start) (h : BlockR close ⟨t :: c, l⟩ (.ok b s')) : StrayIn start.all b := by
  have hm : ∃ st ∈ start.all, ¬ NotFirst k st :=
    ⟨t :: c, (hl _ (by simp [Stmts.all]) (List.suffix_refl _)).subset List.mem_cons_self, fun h => h _ _ rfl ht⟩
  have hsub : ∀ k ∈ partKeywords, k ∈ closingKeywords := by decide
  have h1 : NodeR ⟨[t] ++ c, l⟩ (.error (.unexpectedToken t) ⟨c, l⟩) :=
    .simpleFail (f := .error _) (closing_fail (hsub k hk) ht c)
  have h2 : StepR ⟨t :: c, l⟩ _ := .error h1
  generalize hs : (Stmts.mk (t :: c) l) = s at h h2
  generalize hr : (Read.ok b s') = r at h
  cases h with
  | last h _ =>
    cases hr
    cases h2.det h
    exact ⟨k, hk, hm, t, ht, List.mem_cons_self⟩
  | more h _ hb =>
    cases h2.det h
    rename_i r _
    cases r with
    | ok b' s2 =>
      cases hr
      exact ⟨k, hk, hm, t, ht, List.mem_append_left _ List.mem_cons_self⟩
    | error => cases hr
    | panic => cases hr
  | panic h => cases hr

/-- A program is read in a block as it is alone, whatever follows it, if it does not take, drop or leave out anything
of what follows. -/
theorem BlockR.closedIn {close root : List Keyword} (hc : ∀ k ∈ close, k ∈ partKeywords) {start s : Stmts}
    {r : Read Block} : BlockR root s r → s.Le start → ∀ tree s', r = .ok tree s' → ¬ StrayIn start.all tree →
      (∀ e r, Rest close (.of e) r → BlockR close (s.more e) (r.map (tree ++ ·))) ∨ TakesOne root s tree ∨
      HasStopped root s tree s' ∨ ∃ pre x, tree = pre ++ [.astError x] ∧ x.Unclosed
  | .last (nodes := nodes) h hs => by
    intro _ tree s' hr _
    cases hr
    rcases h.uext with h1 | ⟨_, h1, h2 | h2 | h2⟩
    · exact .inr (.inr (.inl fun e => .last (h1 e) hs))
    · cases h1
      exact .inl fun e r he => .of_rest (h2 e) he
    · cases h1
      exact .inr (.inl ⟨fun e he => .last (h2 e) he, fun e r he hb => .more (h2 e) he hb⟩)
    · obtain ⟨x, rfl, hx⟩ := h2
      cases h1
      exact .inr (.inr (.inr ⟨[], x, rfl, hx⟩))
  | .more (nodes := nodes) (s' := s1) (r := r) h hs hb => by
    intro hl tree s' hr hn
    have hl1 : s1.Le start := Stmts.Le.trans h.le hl
    have ih := hb.closedIn hc hl1
    cases r with
    | ok b s2 =>
      cases hr
      have hb' : ¬ StrayIn start.all b := fun h => hn (h.mono fun n h => List.mem_append_right _ h)
      rcases h.uext with h1 | ⟨_, h1, -⟩
      · rcases ih _ _ rfl hb' with h2 | h2 | h2 | ⟨pre, x, rfl, hx⟩
        · refine .inl fun e r he => ?_
          have hs' : ¬ Stop close (s1.more e) := by
            obtain ⟨c1, l1⟩ := s1
            rintro (h | ⟨t, c, h, k, hk, ht⟩)
            · exact hs (.inl h)
            · have h : c1 = t :: c := h
              subst h
              exact hb' (hb.stray (hc k hk) ht hl1)
          have := BlockR.more (h1 e) hs' (h2 e r he)
          rw [Read.map_map] at this
          simpa only [Function.comp_def, List.append_assoc] using this
        · refine .inr (.inl ⟨fun e he => ?_, fun e r he hb => ?_⟩)
          · rw [List.append_assoc]
            exact .more (h1 e) hs (h2.1 e he)
          · have := BlockR.more (h1 e) hs (h2.2 e r he hb)
            rw [Read.map_map] at this
            simpa only [Function.comp_def, List.append_assoc] using this
        · exact .inr (.inr (.inl fun e => .more (h1 e) hs (h2 e)))
        · exact .inr (.inr (.inr ⟨nodes ++ pre, x, by simp, hx⟩))
      · cases h1; exact absurd (.inl rfl) hs
    | error => cases hr
    | panic => cases hr
  | .panic h => by intro _ _ _ hr; cases hr

/-- The same from the test with one statement after the program. -/
theorem BlockR.readBefore {c : List Token} {l : List (List Token)} {g : Token} {tree : Block} {s' s2 : Stmts}
    {n : Node} (hn : ∀ e, n ≠ .astError e) (h0 : c ≠ []) (h : BlockR [] ⟨c, l⟩ (.ok tree s'))
    (ht : ¬ StrayIn (c :: l) tree) (hu : ∀ pre x, tree = pre ++ [.astError x] → ¬ x.Unclosed)
    (hg : BlockR [] ⟨c, l ++ [[g]]⟩ (.ok (tree ++ [n]) s2)) (Q : List (List Token)) :
    ReadBefore (c :: l) Q (· = tree) := by
  intro close hc r hr
  refine .inl ⟨tree, rfl, .more ?_ ?_⟩
  · rintro (h1 | ⟨t, c1, h1, k, hk, hk'⟩)
    · exact h0 h1
    · have h1 : c = t :: c1 := h1
      subst h1
      exact ht (h.stray (hc k hk) hk' (Stmts.Le.refl _))
  · rcases h.closedIn hc (Stmts.Le.refl _) _ _ rfl ht with h1 | h1 | h1 | ⟨pre, x, h1, h2⟩
    · exact h1 Q r hr
    · have := (h1.1 [[g]] (.inl rfl)).det hg
      have := (Read.ok.inj this).1
      have := List.append_cancel_left this
      simp [leftoverNodes, Stmts.of] at this
      exact absurd this.symm (hn _)
    · have := (h1 [[g]]).det hg
      have := congrArg List.length (Read.ok.inj this).1
      simp at this
    · exact absurd h2 (hu _ _ h1)

end Lol
