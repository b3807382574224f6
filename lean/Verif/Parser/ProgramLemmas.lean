import Verif.Parser.BlockLemmas

/-! # `parse_statement` and `parse_block`: what they do -/

namespace Lol

theorem BPost.panic {α : Type} {pre : List Token} {C : List (List Token)} {s : Stmts} {F : Prop}
    {Q : α → List Token → Stmts → Prop} {p : PanicSite} (h : PanicCause (pre ++ s.tokens) C p) :
    BPost pre C s F Q (exec (Prog.panic (α := α) p) s) := h

theorem BPost.ok_bind {β : Type} {pre : List Token} {C : List (List Token)} {s s' : Stmts} {F : Prop}
    {Q Q' : β → List Token → Stmts → Prop} {r : Res Stmts β} {used : List Token} (hm : s.Moves used s')
    (h : BPost (pre ++ used) C s' F Q' r)
    (hQ : ∀ b used' s'', s'.Moves used' s'' → Q' b used' s'' → Q b (used ++ used') s'') :
    BPost pre C s F Q r := by
  cases r with
  | ok b s2 =>
    obtain ⟨u2, h3, h4⟩ := h
    exact ⟨used ++ u2, hm.trans h3, hQ _ _ _ h3 h4⟩
  | err e s2 =>
    obtain ⟨u2, h3, h4⟩ := h
    exact ⟨used ++ u2, hm.trans h3, by rw [← List.append_assoc]; exact h4⟩
  | panic p =>
    have h : PanicCause _ _ _ := h
    rw [List.append_assoc, ← hm.1] at h
    exact h
  | outOfFuel => exact h

/-- What is to be shown for `parseStatement` called after `first`. -/
def StatementPost (n : Nat) (first : Token) (pre cur : List Token) (later : List (List Token)) :
    Res Stmts Node → Prop :=
  BPost pre ((first :: cur) :: later) ⟨cur, later⟩ (Stmts.size ⟨cur, later⟩ + 2 ≤ n)
    fun node used s' => (node.toks.Sublist (first :: used) ∧ node.WF) ∧
      (node.ErrorFree → s'.cur = [] → ∃ L, Spans ⟨first :: cur, later⟩ L s'.advance ∧ NodeG L node)

theorem parseWtf_post {n : Nat} {block : (Token → Bool) → Prog Block} (hb : BlockOk n block)
    (first : Token) (pre cur : List Token) (later : List (List Token)) (hf : first ∈ pre)
    (hk : first.Is .WTF) :
    BPost pre later ⟨cur, later⟩ (Stmts.size ⟨cur, later⟩ + 2 ≤ n)
      (fun node used s' => (node.toks.Sublist (first :: used) ∧ node.WF) ∧
        (node.ErrorFree → s'.cur = [] → ∃ L, Spans ⟨first :: cur, later⟩ L s'.advance ∧ NodeG L node))
      (exec (parseWtf block n first) ⟨cur, later⟩) := by
  unfold parseWtf
  refine .bind (EPost.next.toB _) ?_
  rintro o used - - ⟨cur', rfl, rfl, (⟨rfl, rfl, -, rfl⟩ | ⟨q, rfl, rfl, -⟩)⟩
  · exact .fail rfl (by simp [hf])
  · dsimp only
    split
    · rename_i hq
      rw [Token.isQuestion_iff] at hq
      refine .bind .nextStatementShouldBeEmpty ?_
      rintro - used s' hm ⟨rfl, hc, rfl⟩
      dsimp only at hc
      subst hc
      have hsz := hm.size_le
      have hl1 := hm.2
      have hl : ∀ st ∈ (Stmts.advance ⟨[], later⟩).later, st ∈ later := fun st h => hl1.subset h
      refine .bind ((parseOmgs_post hb n _ _ later hl).mono (List.Sublist.refl _) (fun _ h => .inr h) ?_
        fun _ _ _ _ h => h) ?_
      · simp only [Stmts.size, Stmts.tokens, List.length_append, List.length_cons, List.length_nil] at *
        omega
      · rintro omgs uo s1 hm1 ⟨⟨h1, hw1⟩, h2⟩
        have hsz1 := hm1.size_le
        refine .bind ((parseOmgWtf_post hb _ s1 later fun st h => hl st (hm1.2.subset h)).mono
          (List.Sublist.refl _) (fun _ h => .inr h) ?_ fun _ _ _ _ h => h) ?_
        · simp only [Stmts.size, Stmts.tokens, List.length_append, List.length_cons, List.length_nil] at *
          omega
        · rintro omgWtf uw s2 hm2 ⟨⟨h3, hw2⟩, h4⟩
          obtain ⟨cur2, later2⟩ := s2
          refine .bind (EPost.next.toB _) ?_
          rintro o used' - - ⟨cur'', rfl, h6, (⟨rfl, rfl, -, rfl⟩ | ⟨c, rfl, rfl, -⟩)⟩
          · exact .fail rfl (by simp [hf])
          · dsimp only
            split
            · rename_i hc
              rw [Token.isKeyword_iff] at hc
              refine .bind .nextStatementShouldBeEmpty ?_
              rintro - used' s' - ⟨rfl, hc', rfl⟩
              dsimp only at hc'
              subst hc' h6
              refine .pure ⟨⟨?_, hk, hw1, hw2⟩, ?_⟩
              · simp only [Node.toks, List.cons_append, List.nil_append]
                refine .cons_cons _ (.cons _ ?_)
                exact List.Sublist.append h1 (h3.trans (by simp))
              · rintro ⟨he1, he2⟩ hc'
                obtain ⟨L, h7, h8⟩ := h2 he1
                obtain ⟨L', h9, h10⟩ := h4 he2
                refine ⟨_, ?_, .switch hk hq h8 h10 hc⟩
                have s1 := Spans.advance [first, q] [] later
                have s2 := Spans.advance [c] [] later2
                generalize Stmts.advance ⟨[], later2⟩ = s3 at hc' s2 ⊢
                obtain ⟨c3, l3⟩ := s3
                dsimp only at hc'
                subst hc'
                have s3 := Spans.advance [] [] l3
                simpa using (((s1.trans h7).trans h9).trans s2).trans s3
            · exact .fail rfl (by simp)
    · exact .fail rfl (by simp [hf])

theorem parseORly_post {n : Nat} {block : (Token → Bool) → Prog Block} (hb : BlockOk n block)
    (first : Token) (pre cur : List Token) (later : List (List Token)) (hf : first ∈ pre)
    (hk : first.Is .O_RLY) :
    BPost pre later ⟨cur, later⟩ (Stmts.size ⟨cur, later⟩ + 2 ≤ n)
      (fun node used s' => (node.toks.Sublist (first :: used) ∧ node.WF) ∧
        (node.ErrorFree → s'.cur = [] → ∃ L, Spans ⟨first :: cur, later⟩ L s'.advance ∧ NodeG L node))
      (exec (parseORly block n first) ⟨cur, later⟩) := by
  unfold parseORly
  refine .bind (EPost.next.toB _) ?_
  rintro o used - - ⟨cur', rfl, rfl, (⟨rfl, rfl, -, rfl⟩ | ⟨q, rfl, rfl, -⟩)⟩
  · exact .fail rfl (by simp [hf])
  · dsimp only
    split
    · rename_i hq
      rw [Token.isQuestion_iff] at hq
      refine .bind .nextStatementShouldBeEmpty ?_
      rintro - used s' hm ⟨rfl, hc, rfl⟩
      dsimp only at hc
      subst hc
      have hsz := hm.size_le
      have hl1 := hm.2
      have hl : ∀ st ∈ (Stmts.advance ⟨[], later⟩).later, st ∈ later := fun st h => hl1.subset h
      refine .bind ((parseYaRly_post hb _ _ later hl).mono (List.Sublist.refl _) (fun _ h => .inr h) ?_
        fun _ _ _ _ h => h) ?_
      · simp only [Stmts.size, Stmts.tokens, List.length_append, List.length_cons, List.length_nil] at *
        omega
      · rintro yaRly uo s1 hm1 ⟨⟨h1, hw1⟩, h2⟩
        have hsz1 := hm1.size_le
        refine .bind ((parseMebbes_post hb n _ s1 later fun st h => hl st (hm1.2.subset h)).mono
          (List.Sublist.refl _) (fun _ h => .inr h) ?_ fun _ _ _ _ h => h) ?_
        · simp only [Stmts.size, Stmts.tokens, List.length_append, List.length_cons, List.length_nil] at *
          omega
        · rintro mebbes uw s2 hm2 ⟨⟨h3, hw2⟩, h4⟩
          have hsz2 := hm2.size_le
          refine .bind ((parseNoWai_post hb _ s2 later
            fun st h => hl st (hm1.2.subset (hm2.2.subset h))).mono
            (List.Sublist.refl _) (fun _ h => .inr h) ?_ fun _ _ _ _ h => h) ?_
          · simp only [Stmts.size, Stmts.tokens, List.length_append, List.length_cons, List.length_nil] at *
            omega
          · rintro noWai un s3 hm3 ⟨⟨h5, hw3⟩, h6⟩
            obtain ⟨cur3, later3⟩ := s3
            refine .bind (EPost.next.toB _) ?_
            rintro o used' - - ⟨cur'', rfl, h7, (⟨rfl, rfl, -, rfl⟩ | ⟨c, rfl, rfl, -⟩)⟩
            · exact .fail rfl (by simp [hf])
            · dsimp only
              split
              · rename_i hc
                rw [Token.isKeyword_iff] at hc
                subst h7
                refine .pure ⟨⟨?_, hk, hw1, hw2, hw3⟩, ?_⟩
                · simp only [Node.toks, List.cons_append, List.nil_append]
                  refine .cons_cons _ (.cons _ ?_)
                  exact List.Sublist.append h1 (List.Sublist.append h3 (h5.trans (by simp)))
                · rintro ⟨he1, he2, he3⟩ hc'
                  obtain ⟨L, h8, h9⟩ := h2 he1
                  obtain ⟨L', h10, h11⟩ := h4 he2
                  obtain ⟨L'', h12, h13⟩ := h6 he3
                  refine ⟨_, ?_, .conditional hk hq h9 h11 h13 hc⟩
                  dsimp only at hc'
                  subst hc'
                  have s1 := Spans.advance [first, q] [] later
                  have s2 := Spans.advance [c] [] later3
                  simpa using (((s1.trans h8).trans h10).trans h12).trans s2
              · exact .fail rfl (by simp)
    · exact .fail rfl (by simp [hf])

theorem ArgsG.toks_sublist {rest ts : List Token} {es : List Expr} (h : ArgsG rest ts es) :
    (es.flatMap (·.toks)).Sublist ts := by
  induction h with
  | nil => simp
  | one => simp
  | cons h1 h2 h3 h4 _ ih =>
    simp only [List.flatMap_cons]
    exact (List.Sublist.append (List.Sublist.refl _) (ih.cons _)).cons _

theorem SimpleG.toks_sublist {rest ts : List Token} {node : Node} (h : SimpleG rest ts node) :
    node.toks.Sublist ts := by
  cases h with
  | declaration => simp [Node.toks]
  | declarationType => simp [Node.toks, IHasAInitialValue.toks]
  | declarationExpr => simp [Node.toks, IHasAInitialValue.toks]
  | assignment => simp [Node.toks]
  | setSlot => simp [Node.toks]
  | access => simp [Node.toks, Expr.toks, ExprValue.toks]
  | expression => simp [Node.toks]
  | visible => simp [Node.toks]
  | gimmeh => simp [Node.toks]
  | foundYr => simp [Node.toks]
  | call h1 h2 h3 h4 =>
    have := h3.toks_sublist
    simp only [Node.toks]
    exact .cons_cons _ (List.Sublist.append (List.Sublist.refl _) (this.trans (by simp)))
  | gtfo => simp [Node.toks]
  | kThxBye => simp [Node.toks]

theorem ArgsG.wf {rest ts : List Token} {es : List Expr} (h : ArgsG rest ts es) : ∀ e ∈ es, e.WF := by
  induction h with
  | nil => simp
  | one h1 h2 => simpa using h2
  | cons h1 h2 h3 h4 _ ih =>
    simp only [List.mem_cons, forall_eq_or_imp]
    exact ⟨h2, ih⟩

theorem FollowAll.wf {es : List Expr} {rest : List Token} (h : FollowAll es rest) : ∀ e ∈ es, e.WF := by
  induction es with
  | nil => simp
  | cons e es ih =>
    simp only [List.mem_cons, forall_eq_or_imp]
    exact ⟨h.1, ih h.2.2⟩

theorem SimpleG.wf {rest ts : List Token} {node : Node} (h : SimpleG rest ts node) : node.WF := by
  cases h with
  | declaration h1 h2 => exact ⟨h1, h2, by simp⟩
  | declarationType h1 h2 h3 h4 => exact ⟨h1, h2, by simpa [IHasAInitialValue.WF] using h4⟩
  | declarationExpr h1 h2 h3 h4 h5 h6 =>
    refine ⟨h1, h2, ?_⟩
    simp only [Option.mem_def, Option.some.injEq, forall_eq']
    exact ⟨h4, h6⟩
  | assignment h1 h2 h3 => exact ⟨h1, h2, h3⟩
  | setSlot h1 h2 h3 h4 h5 => exact ⟨h1, h3, h5⟩
  | access h => exact h
  | expression h => exact h
  | visible h1 h2 h3 => exact ⟨h1, h2.wf, h3⟩
  | gimmeh h1 h2 => exact ⟨h1, h2⟩
  | foundYr h1 h2 => exact ⟨h1, h2⟩
  | call h1 h2 h3 => exact ⟨h1, h2, h3.wf⟩
  | gtfo h => exact h
  | kThxBye h => exact h

/-- A simple statement. -/
theorem StatementPost.simple {n : Nat} {first : Token} {pre cur : List Token} {later : List (List Token)}
    {α : Type} {f : α → Node} {p : Prog α} (h : SimplePost n first pre cur later f (exec p ⟨cur, later⟩)) :
    StatementPost n first pre cur later (exec (do let a ← p; pure (f a)) ⟨cur, later⟩) := by
  refine .bind ((EPost.toB h _).mono (List.Sublist.refl _) (fun _ h => .inr h)
    (by simp [Stmts.size, Stmts.tokens] <;> omega) fun _ _ _ _ h => h) ?_
  rintro a used - - ⟨cur', rfl, rfl, h1⟩
  refine .pure ⟨⟨?_, h1.wf⟩, ?_⟩
  · simpa using h1.toks_sublist
  · intro _ hc
    dsimp only at hc
    subst hc
    exact ⟨_, by simpa using Spans.advance (first :: used) [] later, .simple h1⟩

theorem parseAccessStatement_post (n : Nat) (first : Token) (pre cur : List Token)
    (later : List (List Token)) (hf : first ∈ pre) :
    StatementPost n first pre cur later (exec (parseAccessStatement n first) ⟨cur, later⟩) := by
  unfold parseAccessStatement
  refine .bind (((VariableAccess.parse_post n pre cur later first hf).mono (fun _ h => h)
    (by simp [Stmts.size, Stmts.tokens] <;> omega) fun _ _ _ _ h => h).toB _) ?_
  rintro v used - - ⟨cur', rfl, rfl, h1, h2, h3⟩
  have hv : ∀ t ∈ v.toks, t ∈ pre ++ used := by
    intro t ht
    rw [← h1] at ht
    rcases List.mem_cons.1 ht with rfl | h
    · exact List.mem_append_left _ hf
    · exact List.mem_append_right _ h
  cases cur' with
  | nil =>
    rw [exec_bind, exec_peek_nil, Res.andThen_ok]
    dsimp only
    refine .pure ⟨⟨?_, h2⟩, ?_⟩
    · simp [Node.toks, Expr.toks, ExprValue.toks, h1]
    · intro _ _
      exact ⟨_, by simpa using Spans.advance (first :: used) [] later,
        by rw [h1]; exact .simple (.access h2 rfl)⟩
  | cons t r =>
    rw [exec_bind, exec_peek_cons, Res.andThen_ok]
    dsimp only
    split
    · refine .bind (((VariableAssignment.parse_post n v h2 (pre ++ used) (t :: r) later hv).mono (fun _ h => h)
        (by simp [Stmts.size, Stmts.tokens] <;> omega) fun _ _ _ _ h => h).toB _) ?_
      rintro a used' - - ⟨cur', rfl, h5, h4⟩
      rw [← h1] at h4
      refine .pure ⟨⟨?_, h4.wf⟩, ?_⟩
      · simpa using h4.toks_sublist
      · intro _ hc
        dsimp only at hc
        subst hc
        exact ⟨_, by rw [h5]; simpa using Spans.advance (first :: (used ++ used')) [] later, .simple h4⟩
    · refine .bind (((BukkitSetSlot.parse_post n v h2 (pre ++ used) (t :: r) later hv).mono (fun _ h => h)
        (by simp [Stmts.size, Stmts.tokens] <;> omega) fun _ _ _ _ h => h).toB _) ?_
      rintro a used' - - ⟨cur', rfl, h5, h4⟩
      rw [← h1] at h4
      refine .pure ⟨⟨?_, h4.wf⟩, ?_⟩
      · simpa using h4.toks_sublist
      · intro _ hc
        dsimp only at hc
        subst hc
        exact ⟨_, by rw [h5]; simpa using Spans.advance (first :: (used ++ used')) [] later, .simple h4⟩
    · rename_i h4 h5
      exact .panic ⟨_, List.mem_cons_self, v, t, r, h2, by rw [← h1]; simp, h4, h5, h3 t r rfl⟩

theorem Expr.not_access_of_not_valid {e : Expr} {first : Token} {used : List Token}
    (h : first :: used = e.toks) (he : e.WF) (hv : ¬ VariableAccess.isValid first = true) (v : VariableAccess) :
    e ≠ .value (.variableAccess v) := by
  rintro rfl
  rw [isValid_iff] at hv
  have he : v.WF := he
  obtain ⟨he, -⟩ := he
  have h : first :: used = v.toks := h
  obtain ⟨⟨name, srs⟩, slots⟩ := v
  unfold Identifier.WF at he
  cases srs with
  | none =>
    simp [VariableAccess.toks, Identifier.toks] at h he
    exact hv (.inl (h.1 ▸ he))
  | some s =>
    simp [VariableAccess.toks, Identifier.toks] at h he
    exact hv (.inr (h.1 ▸ he.2))

theorem parseStatement_post {n : Nat} {block : (Token → Bool) → Prog Block} (hb : BlockOk n block)
    (first : Token) (pre cur : List Token) (later : List (List Token)) (hf : first ∈ pre) :
    StatementPost n first pre cur later (exec (parseStatement block n first) ⟨cur, later⟩) := by
  unfold parseStatement
  have hw : ∀ {r : Res Stmts Node}, BPost pre later ⟨cur, later⟩ (Stmts.size ⟨cur, later⟩ + 2 ≤ n)
      (fun node used s' => (node.toks.Sublist (first :: used) ∧ node.WF) ∧
        (node.ErrorFree → s'.cur = [] → ∃ L, Spans ⟨first :: cur, later⟩ L s'.advance ∧ NodeG L node)) r →
      StatementPost n first pre cur later r := fun h =>
    h.mono (List.Sublist.refl _) (fun _ h => .inr (List.mem_cons_of_mem _ h)) (fun h => h) fun _ _ _ _ h => h
  split
  · exact parseAccessStatement_post n first pre cur later hf
  · rename_i hnv
    split
    · rename_i hk; exact .simple (IHasA.parse_post n first pre cur later hf hk)
    · rename_i hk; exact .simple (Visible.parse_post n first pre cur later hk)
    · rename_i hk; exact .simple (Gimmeh.parse_post n first pre cur later hf hk)
    · rename_i hk; exact .simple (FoundYr.parse_post n first pre cur later hf hk)
    · rename_i hk
      unfold Hai.parse
      simp only [exec_bind, exec_nextStatement, Res.andThen_ok, exec_pure]
      have hm := Stmts.moves_advance ⟨cur, later⟩
      refine ⟨cur, hm, ⟨by simp [Node.toks], hk⟩, ?_⟩
      intro _ hc'
      refine ⟨_, ?_, .hai (version := cur) hk⟩
      have s1 := Spans.advance (first :: cur) cur later
      generalize Stmts.advance ⟨cur, later⟩ = s2 at hc' s1 ⊢
      obtain ⟨c2, l2⟩ := s2
      dsimp only at hc'
      subst hc'
      simpa using s1.trans (Spans.advance [] [] l2)
    · rename_i hk
      refine .pure ⟨⟨by simp [Node.toks], hk⟩, ?_⟩
      intro _ hc
      dsimp only at hc
      subst hc
      exact ⟨_, Spans.advance _ _ later, .simple (.kThxBye hk)⟩
    · rename_i hk
      refine .pure ⟨⟨by simp [Node.toks], hk⟩, ?_⟩
      intro _ hc
      dsimp only at hc
      subst hc
      exact ⟨_, Spans.advance _ _ later, .simple (.gtfo hk)⟩
    · rename_i hk; exact .simple (IIz.parse_post n first pre cur later hf hk)
    · rename_i hk; exact hw (parseImInYr_post hb first pre cur later hf hk)
    · rename_i hk; exact hw (parseHowIzI_post hb first pre cur later hf hk)
    · rename_i hk; exact hw (parseWtf_post hb first pre cur later hf hk)
    · rename_i hk; exact hw (parseORly_post hb first pre cur later hf hk)
    · refine .simple (f := .expression) ((parseExpr_post' n first pre cur later hf).mono (fun _ h => h)
        (fun h => h) ?_)
      rintro e used cur' - ⟨h1, h2, h3⟩
      rw [h1]
      exact .expression h2 h3 (Expr.not_access_of_not_valid h1 h2 hnv)

theorem toksBlock_append (a b : List Node) : toksBlock (a ++ b) = toksBlock a ++ toksBlock b := by
  induction a with
  | nil => simp [toksBlock]
  | cons n a ih => simp [toksBlock, ih]

theorem wfBlock_append (a b : List Node) : wfBlock (a ++ b) ↔ wfBlock a ∧ wfBlock b := by
  induction a with
  | nil => simp [wfBlock]
  | cons n a ih => simp [wfBlock, ih, and_assoc]

theorem errorFreeBlock_append (a b : List Node) :
    errorFreeBlock (a ++ b) ↔ errorFreeBlock a ∧ errorFreeBlock b := by
  induction a with
  | nil => simp [errorFreeBlock]
  | cons n a ih => simp [errorFreeBlock, ih, and_assoc]

/-- The nodes for the rest of a statement. -/
def leftover : Prog Block := do
  match ← nextStatementShouldBeEmpty.toResult with
  | .ok _ => pure []
  | .error e => pure [Node.astError e]

/-- What `parseBlock` does after the first statement of the block. -/
def blockTail (fuel : Nat) (stop : Token → Bool) (nodes : Block) : Prog Block := do
  let errors ← leftover
  match ← peek with
  | none => pure (nodes ++ errors)
  | some token =>
    if stop token then pure (nodes ++ errors)
    else
      let more ← parseBlock fuel stop
      pure (nodes ++ errors ++ more)

theorem parseBlock_nil (n : Nat) (stop : Token → Bool) (later : List (List Token)) :
    exec (parseBlock (n + 1) stop) ⟨[], later⟩ = exec (blockTail n stop []) ⟨[], later⟩ := by
  rw [parseBlock]
  cases later <;> rfl

theorem parseBlock_cons (n : Nat) (stop : Token → Bool) (t : Token) (cur : List Token)
    (later : List (List Token)) : exec (parseBlock (n + 1) stop) ⟨t :: cur, later⟩ =
      (exec (parseStatement (parseBlock n) n t).toResult ⟨cur, later⟩).andThen fun x s =>
        exec (blockTail n stop (match x with
          | .ok node => [node]
          | .error e => [.astError e])) s := by
  rw [parseBlock]
  simp only [exec_bind, exec_next_cons, Res.andThen_ok]
  cases exec (parseStatement (parseBlock n) n t).toResult ⟨cur, later⟩ with
  | ok x s =>
    simp only [blockTail, leftover, exec_bind, exec_toResult, exec_nextStatementShouldBeEmpty]
    cases x <;> simp only [Res.andThen_ok, exec_pure, exec_bind] <;> by_cases h : s.cur = [] <;> simp [h] <;>
      rfl
  | err e s => simp
  | panic p => simp
  | outOfFuel => simp

theorem BlockG.nodesG {s s' : Stmts} {L : List (List Token)} {nodes : List Node} (h : BlockG L nodes)
    (hs : Spans s L s') (hc : s.cur ≠ []) : NodesG L nodes := by
  cases h with
  | nodes h1 h2 => exact .cons h1 h2
  | skip h =>
    obtain ⟨k, hs⟩ := hs
    simp [Stmts.all] at hs
    exact absurd hs.1 hc

theorem blockTail_post {n : Nat} (hb : BlockOk n (parseBlock n)) (stop : Token → Bool) (nodes : Block)
    (pre : List Token) (s : Stmts) :
    BPost pre s.later s (s.advance.cur ≠ [] → s.advance.size + 2 ≤ n)
      (fun res used s' => ∃ more, res = nodes ++ more ∧ ((toksBlock more).Sublist used ∧ wfBlock more) ∧
        (s'.cur = [] ∨ ∃ t r, s'.cur = t :: r ∧ stop t = true) ∧
        (errorFreeBlock more → s.cur = [] ∧ ∃ L, Spans s.advance L s' ∧ NodesG L more))
      (exec (blockTail n stop nodes) s) := by
  unfold blockTail
  refine BPost.bind (Q1 := fun errors used s' => s' = s.advance ∧ used = s.cur ∧
    toksBlock errors = s.cur ∧ wfBlock errors ∧ (errorFreeBlock errors → s.cur = [] ∧ errors = [])) ?_ ?_
  · simp only [leftover, exec_bind, exec_toResult, exec_nextStatementShouldBeEmpty]
    have hm := s.moves_advance
    split
    · rename_i h
      refine ⟨_, hm, rfl, rfl, by simp [toksBlock, h], trivial, by simp [h]⟩
    · refine ⟨_, hm, rfl, rfl, by simp [toksBlock, Node.toks, ASTError.toks],
        ⟨trivial, trivial⟩, ?_⟩
      simp [errorFreeBlock, Node.ErrorFree]
  · rintro errors - - - ⟨rfl, rfl, h1, hw, h2⟩
    have hsp : ∀ c l, s.advance = ⟨c, l⟩ → s.advance.cur = c := fun c l h => by rw [h]
    have hall := s.advance_all
    generalize s.advance = s1 at hsp hall ⊢
    obtain ⟨cur, later⟩ := s1
    cases cur with
    | nil =>
      rw [exec_bind, exec_peek_nil, Res.andThen_ok]
      refine .pure ⟨errors, rfl, ⟨by simp [h1], hw⟩, .inl rfl, ?_⟩
      intro he
      obtain ⟨h3, rfl⟩ := h2 he
      exact ⟨h3, [], Spans.refl _, .nil⟩
    | cons t r =>
      rw [exec_bind, exec_peek_cons, Res.andThen_ok]
      dsimp only
      split
      · rename_i hst
        refine .pure ⟨errors, rfl, ⟨by simp [h1], hw⟩, .inr ⟨t, r, rfl, hst⟩, ?_⟩
        intro he
        obtain ⟨h3, rfl⟩ := h2 he
        exact ⟨h3, [], Spans.refl _, .nil⟩
      · refine .bind ((hb stop _ ⟨t :: r, later⟩).mono (List.Sublist.refl _) hall
          (fun h => h (by simp)) fun _ _ _ _ h => h) ?_
        rintro more used s' hm ⟨⟨h3, hw'⟩, h4, h5⟩
        refine .pure ⟨errors ++ more, by simp, ⟨?_, (wfBlock_append _ _).2 ⟨hw, hw'⟩⟩, h4, ?_⟩
        · rw [toksBlock_append, h1]
          simpa using h3
        · rw [errorFreeBlock_append]
          rintro ⟨he1, he2⟩
          obtain ⟨h6, rfl⟩ := h2 he1
          obtain ⟨L, h7, h8⟩ := h5 he2
          exact ⟨h6, L, h7, h8.nodesG h7 (by simp)⟩

theorem parseBlock_post (n : Nat) : BlockOk n (parseBlock n) := by
  induction n with
  | zero =>
    intro stop pre s
    rw [parseBlock]
    exact fun h => absurd h (by omega)
  | succ n ih =>
    rintro stop pre ⟨cur, later⟩
    unfold BlockPost
    cases cur with
    | nil =>
      rw [parseBlock_nil]
      refine (blockTail_post ih stop [] pre ⟨[], later⟩).mono (List.Sublist.refl _)
        (fun st h => .inr (List.mem_cons_of_mem _ h)) ?_ ?_
      · intro h h'
        have := Stmts.advance_size _ h'
        omega
      · rintro res used s' hm ⟨more, rfl, ⟨h1, hw⟩, h2, h3⟩
        refine ⟨⟨by simpa using h1, hw⟩, h2, ?_⟩
        intro he
        obtain ⟨h4, L, h5, h6⟩ := h3 (by simpa using he)
        exact ⟨_, by simpa using (Spans.advance [] [] later).trans h5, by simpa using .skip h6⟩
    | cons t cur =>
      rw [parseBlock_cons]
      have hst := (parseStatement_post ih t [t] cur later (by simp)).toResult
      cases hr : exec (parseStatement (parseBlock n) n t).toResult ⟨cur, later⟩ with
      | outOfFuel =>
        rw [hr] at hst
        intro h
        refine hst ?_
        simp [Stmts.size, Stmts.tokens] at h ⊢
        omega
      | panic p =>
        rw [hr] at hst
        have : PanicCause _ _ _ := hst
        refine this.mono (fun u hu => List.mem_append_right _ ?_) (fun st h => .inr h)
        simpa [Stmts.tokens] using hu
      | err e s =>
        rw [exec_toResult] at hr
        cases h : exec (parseStatement (parseBlock n) n t) ⟨cur, later⟩ <;> simp [h] at hr
      | ok x s =>
        rw [hr] at hst
        obtain ⟨used, hm, hQ⟩ := hst
        rw [Res.andThen_ok]
        have hm' : Stmts.Moves ⟨t :: cur, later⟩ (t :: used) s := by
          refine ⟨?_, hm.2⟩
          have := hm.1
          simp [Stmts.tokens] at this ⊢
          exact this
        have hsz := hm'.size_le
        have hadv := s.moves_advance.size_le
        refine BPost.ok_bind hm' ((blockTail_post ih stop _ (pre ++ (t :: used)) s).mono (List.Sublist.refl _)
          (fun st h => .inr (List.mem_cons_of_mem _ (hm.2.subset h))) ?_ fun _ _ _ _ h => h) ?_
        · intro h _
          simp [Stmts.size, Stmts.tokens] at *
          omega
        · rintro res used' s' hm2 ⟨more, rfl, ⟨h1, hw⟩, h2, h3⟩
          cases x with
          | error e =>
            refine ⟨⟨?_, trivial, hw⟩, h2, ?_⟩
            · rw [toksBlock_append]
              refine List.Sublist.append ?_ h1
              simpa [toksBlock, Node.toks] using hQ
            · simp [errorFreeBlock, Node.ErrorFree]
          | ok node =>
            obtain ⟨⟨h4, hw'⟩, h5⟩ := hQ
            refine ⟨⟨?_, hw', hw⟩, h2, ?_⟩
            · rw [toksBlock_append]
              refine List.Sublist.append ?_ h1
              simpa [toksBlock] using h4
            · rw [errorFreeBlock_append]
              rintro ⟨he1, he2⟩
              obtain ⟨h6, L, h7, h8⟩ := h3 he2
              obtain ⟨L', h9, h10⟩ := h5 he1.1 h6
              exact ⟨_, h9.trans h7, .nodes h10 h8⟩

/-! ## Derived trees have no errors -/

theorem SimpleG.errorFree {rest ts : List Token} {node : Node} (h : SimpleG rest ts node) : node.ErrorFree := by
  cases h <;> exact trivial

mutual

theorem NodeG.errorFree {L : List (List Token)} {node : Node} : NodeG L node → node.ErrorFree
  | .simple h => h.errorFree
  | .hai _ => trivial
  | .loop _ _ _ _ h _ _ => h.errorFree
  | .function _ _ _ h _ => h.errorFree
  | .switch _ _ h1 h2 _ => ⟨h1.errorFree, h2.errorFree⟩
  | .conditional _ _ h1 h2 h3 _ => ⟨h1.errorFree, h2.errorFree, h3.errorFree⟩

theorem OmgsG.errorFree {L : List (List Token)} {omgs : List WtfOmg} : OmgsG L omgs → errorFreeOmgs omgs
  | .nil => trivial
  | .cons _ _ h1 h2 => ⟨h1.errorFree, h2.errorFree⟩

theorem OmgWtfG.errorFree {L : List (List Token)} {o : Option WtfOmgWtf} : OmgWtfG L o → errorFreeOmgWtf o
  | .none => trivial
  | .some _ h => h.errorFree

theorem YaRlyG.errorFree {L : List (List Token)} {o : Option YaRly} : YaRlyG L o → errorFreeYaRly o
  | .none => trivial
  | .some _ h => h.errorFree

theorem MebbesG.errorFree {L : List (List Token)} {mebbes : List Mebbe} :
    MebbesG L mebbes → errorFreeMebbes mebbes
  | .nil => trivial
  | .cons _ _ h1 h2 => ⟨h1.errorFree, h2.errorFree⟩

theorem NoWaiG.errorFree {L : List (List Token)} {o : Option NoWai} : NoWaiG L o → errorFreeNoWai o
  | .none => trivial
  | .some _ h => h.errorFree

theorem BlockG.errorFree {L : List (List Token)} {nodes : List Node} : BlockG L nodes → errorFreeBlock nodes
  | .nodes h1 h2 => ⟨h1.errorFree, h2.errorFree⟩
  | .skip h => h.errorFree

theorem NodesG.errorFree {L : List (List Token)} {nodes : List Node} : NodesG L nodes → errorFreeBlock nodes
  | .nil => trivial
  | .cons h1 h2 => ⟨h1.errorFree, h2.errorFree⟩

end

end Lol
