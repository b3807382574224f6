import Verif.Parser.SimpleLemmas

/-! # Statements and blocks: what the parsers do -/

namespace Lol

/-! ## States of the iterator -/

/-- `s'` is reached from `s` by consuming the tokens `used`. -/
def Stmts.Moves (s : Stmts) (used : List Token) (s' : Stmts) : Prop :=
  s.tokens = used ++ s'.tokens ∧ s'.later <:+ s.later

/-- Number of tokens and statements left. -/
def Stmts.size (s : Stmts) : Nat := s.tokens.length + s.later.length

theorem Stmts.Moves.size_le {s s' : Stmts} {used : List Token} (h : s.Moves used s') :
    s'.size + used.length ≤ s.size := by
  obtain ⟨h1, h2⟩ := h
  have := h2.length_le
  simp only [Stmts.size, h1, List.length_append]
  omega

theorem Stmts.Moves.refl (s : Stmts) : s.Moves [] s := ⟨rfl, List.suffix_refl _⟩

theorem Stmts.Moves.trans {s s' s'' : Stmts} {u u' : List Token} (h : s.Moves u s') (h' : s'.Moves u' s'') :
    s.Moves (u ++ u') s'' :=
  ⟨by rw [h.1, h'.1, List.append_assoc], h'.2.trans h.2⟩

theorem Stmts.Moves.cur {used cur : List Token} {later : List (List Token)} :
    Stmts.Moves ⟨used ++ cur, later⟩ used ⟨cur, later⟩ :=
  ⟨by simp [Stmts.tokens], List.suffix_refl _⟩

theorem Stmts.moves_advance (s : Stmts) : s.Moves s.cur s.advance := by
  obtain ⟨cur, later⟩ := s
  cases later with
  | nil => exact ⟨by simp [Stmts.tokens, Stmts.advance], by simp [Stmts.advance]⟩
  | cons c l => exact ⟨by simp [Stmts.tokens, Stmts.advance], by simp [Stmts.advance]⟩

theorem Stmts.advance_size (s : Stmts) (h : s.advance.cur ≠ []) : s.advance.size < s.size := by
  obtain ⟨cur, later⟩ := s
  cases later with
  | nil => simp [Stmts.advance] at h
  | cons c l => simp [Stmts.advance, Stmts.size, Stmts.tokens]; omega

/-- From `s` the statements `L` are read, which leads to `s'`. After the last statement there are empty ones. -/
def Spans (s : Stmts) (L : List (List Token)) (s' : Stmts) : Prop :=
  ∃ k, s.all ++ List.replicate k [] = L ++ s'.all

theorem Spans.refl (s : Stmts) : Spans s [] s := ⟨0, by simp⟩

theorem Spans.trans {s s' s'' : Stmts} {L L' : List (List Token)} (h : Spans s L s') (h' : Spans s' L' s'') :
    Spans s (L ++ L') s'' := by
  obtain ⟨k, h⟩ := h
  obtain ⟨k', h'⟩ := h'
  refine ⟨k + k', ?_⟩
  rw [← List.replicate_append_replicate, ← List.append_assoc, h, List.append_assoc, h', List.append_assoc]

theorem Spans.advance (c c' : List Token) (later : List (List Token)) :
    Spans ⟨c, later⟩ [c] (Stmts.advance ⟨c', later⟩) := by
  cases later with
  | nil => exact ⟨1, by simp [Stmts.all, Stmts.advance]⟩
  | cons d l => exact ⟨0, by simp [Stmts.all, Stmts.advance]⟩

/-! ## Panics -/

/-- Why a parser that has still the tokens `ts` to read panics, `stmts` being the statements that it can start
to read. -/
def PanicCause (ts : List Token) (stmts : List (List Token)) : PanicSite → Prop
  | .todoMaek => ∃ t ∈ ts, t.Is .MAEK
  | .unreachableStatement => ∃ st ∈ stmts, AccessThen st
  | _ => False

theorem AccessThen.ne_nil {st : List Token} (h : AccessThen st) : st ≠ [] := by
  obtain ⟨v, t, r, -, rfl, -⟩ := h
  simp

theorem PanicCause.mono {ts ts' : List Token} {stmts stmts' : List (List Token)} {p : PanicSite}
    (h : PanicCause ts stmts p) (h1 : ∀ t ∈ ts, t ∈ ts') (h2 : ∀ st ∈ stmts, st = [] ∨ st ∈ stmts') :
    PanicCause ts' stmts' p := by
  unfold PanicCause at h ⊢
  split at h
  · obtain ⟨t, h3, h4⟩ := h
    exact ⟨t, h1 t h3, h4⟩
  · obtain ⟨st, h3, h4⟩ := h
    exact ⟨st, (h2 st h3).resolve_left h4.ne_nil, h4⟩
  · exact h.elim

theorem Stmts.advance_all (s : Stmts) : ∀ st ∈ s.advance.all, st = [] ∨ st ∈ s.later := by
  obtain ⟨cur, later⟩ := s
  cases later with
  | nil => simp [Stmts.advance, Stmts.all]
  | cons c l => simp only [Stmts.advance, Stmts.all]; exact fun st h => .inr h

/-! ## Postconditions -/

/-- What a parser does that may go on to later statements. -/
def BPost {α : Type} (pre : List Token) (C : List (List Token)) (s : Stmts) (F : Prop)
    (Q : α → List Token → Stmts → Prop) : Res Stmts α → Prop
  | .ok a s' => ∃ used, s.Moves used s' ∧ Q a used s'
  | .err e s' => ∃ used, s.Moves used s' ∧ e.toks.Sublist (pre ++ used)
  | .panic p => PanicCause (pre ++ s.tokens) C p
  | .outOfFuel => ¬ F

theorem BPost.mono {α : Type} {pre pre' : List Token} {C C' : List (List Token)} {s : Stmts} {F F' : Prop}
    {Q Q' : α → List Token → Stmts → Prop} {r : Res Stmts α} (h : BPost pre C s F Q r)
    (hp : pre.Sublist pre') (hC : ∀ st ∈ C, st = [] ∨ st ∈ C') (hF : F' → F)
    (hQ : ∀ a used s', s.Moves used s' → Q a used s' → Q' a used s') : BPost pre' C' s F' Q' r := by
  cases r with
  | ok a s' =>
    obtain ⟨u, h1, h2⟩ := h
    exact ⟨u, h1, hQ _ _ _ h1 h2⟩
  | err e s' =>
    obtain ⟨u, h1, h2⟩ := h
    exact ⟨u, h1, h2.trans (hp.append_right u)⟩
  | panic p =>
    refine PanicCause.mono h ?_ hC
    intro t ht
    rcases List.mem_append.1 ht with h | h
    · exact List.mem_append_left _ (hp.subset h)
    · exact List.mem_append_right _ h
  | outOfFuel => exact fun hf => h (hF hf)

theorem BPost.bind {α β : Type} {pre : List Token} {C : List (List Token)} {s : Stmts} {F : Prop}
    {Q1 : α → List Token → Stmts → Prop} {Q : β → List Token → Stmts → Prop}
    {p : Prog α} {f : α → Prog β} (h1 : BPost pre C s F Q1 (exec p s))
    (h2 : ∀ a used s', s.Moves used s' → Q1 a used s' →
      BPost (pre ++ used) C s' F (fun b used2 s'' => Q b (used ++ used2) s'') (exec (f a) s')) :
    BPost pre C s F Q (exec (p >>= f) s) := by
  rw [exec_bind]
  cases hp : exec p s with
  | ok a s1 =>
    rw [hp] at h1
    obtain ⟨u, hm, hq⟩ := h1
    have := h2 a u s1 hm hq
    rw [Res.andThen_ok]
    cases hf : exec (f a) s1 with
    | ok b s2 =>
      rw [hf] at this
      obtain ⟨u2, h3, h4⟩ := this
      exact ⟨u ++ u2, hm.trans h3, h4⟩
    | err e s2 =>
      rw [hf] at this
      obtain ⟨u2, h3, h4⟩ := this
      exact ⟨u ++ u2, hm.trans h3, by rw [← List.append_assoc]; exact h4⟩
    | panic p =>
      rw [hf] at this
      show PanicCause _ _ _
      rw [hm.1, ← List.append_assoc]
      exact this
    | outOfFuel => rw [hf] at this; exact this
  | err e s => rw [hp] at h1; exact h1
  | panic s => rw [hp] at h1; exact h1
  | outOfFuel => rw [hp] at h1; exact h1

theorem BPost.pure {α : Type} {pre : List Token} {C : List (List Token)} {s : Stmts} {F : Prop}
    {Q : α → List Token → Stmts → Prop} {a : α} (h : Q a [] s) :
    BPost pre C s F Q (exec (Pure.pure a) s) := ⟨[], .refl s, h⟩

theorem BPost.fail {α : Type} {pre : List Token} {C : List (List Token)} {s : Stmts} {F : Prop}
    {Q : α → List Token → Stmts → Prop} {e : ASTError} {t : Token} (h : e.toks = [t]) (ht : t ∈ pre) :
    BPost pre C s F Q (exec (Lol.fail (α := α) e) s) :=
  ⟨[], .refl s, by rw [h, List.append_nil]; exact List.singleton_sublist.2 ht⟩

/-- A parser that stays in the statement. -/
theorem EPost.toB {α : Type} {pre cur : List Token} {later : List (List Token)} {F : Prop}
    {Q : α → List Token → List Token → Prop} {r : Res Stmts α} (h : EPost pre cur later F Q r)
    (C : List (List Token)) : BPost pre C ⟨cur, later⟩ F
      (fun a used s' => ∃ cur', s' = ⟨cur', later⟩ ∧ cur = used ++ cur' ∧ Q a used cur') r := by
  cases r with
  | ok a s =>
    obtain ⟨u, c, rfl, rfl, h3⟩ := h
    exact ⟨u, .cur, c, rfl, rfl, h3⟩
  | err e s =>
    obtain ⟨u, c, t, rfl, rfl, h3, h4, h5⟩ := h
    exact ⟨u, .cur, by rw [h3]; exact List.singleton_sublist.2 h4⟩
  | panic p =>
    obtain ⟨rfl, t, h2, h3⟩ := h
    refine ⟨t, ?_, h3⟩
    simp only [Stmts.tokens, List.mem_append] at h2 ⊢
    rcases h2 with h | h <;> simp [h]
  | outOfFuel => exact h

theorem BPost.toResult {α : Type} {pre : List Token} {C : List (List Token)} {s : Stmts} {F : Prop}
    {Q : α → List Token → Stmts → Prop} {p : Prog α} (h : BPost pre C s F Q (exec p s)) :
    BPost pre C s F (fun x used s' => match x with
      | .ok a => Q a used s'
      | .error e => e.toks.Sublist (pre ++ used)) (exec p.toResult s) := by
  rw [exec_toResult]
  cases hp : exec p s with
  | ok a s' => rw [hp] at h; exact h
  | err e s' => rw [hp] at h; exact h
  | panic p => rw [hp] at h; exact h
  | outOfFuel => rw [hp] at h; exact h

theorem BPost.nextStatementShouldBeEmpty {pre : List Token} {C : List (List Token)} {s : Stmts} {F : Prop} :
    BPost pre C s F (fun _ used s' => used = [] ∧ s.cur = [] ∧ s' = s.advance)
      (exec Lol.nextStatementShouldBeEmpty s) := by
  have hm := s.moves_advance
  rw [exec_nextStatementShouldBeEmpty]
  split
  · rename_i h
    exact ⟨[], h ▸ hm, rfl, h, rfl⟩
  · exact ⟨s.cur, hm, List.sublist_append_right _ _⟩

/-! ## Block statements -/

theorem Token.isIdentifier_iff {t : Token} : t.isIdentifier = true ↔ t.IsIdent := by
  unfold Token.isIdentifier Token.IsIdent
  split <;> simp_all

theorem Token.isQuestion_iff {t : Token} : t.isQuestion = true ↔ t.IsQuestion := by
  simp [Token.isQuestion, Token.IsQuestion]

theorem IterationG.wf {ts : List Token} {op : Option LoopIterationOperation} (h : IterationG ts op) :
    ∀ o ∈ op, o.WF := by
  cases h with
  | none => simp
  | some h1 h2 h3 =>
    simp only [Option.mem_def, Option.some.injEq, forall_eq']
    exact ⟨h1, h3⟩

theorem ConditionG.wf {ts : List Token} {c : Option LoopCondition} (h : ConditionG ts c) : ∀ o ∈ c, o.WF := by
  cases h with
  | none => simp
  | til h1 h2 =>
    simp only [Option.mem_def, Option.some.injEq, forall_eq']
    exact h2
  | wile h1 h2 =>
    simp only [Option.mem_def, Option.some.injEq, forall_eq']
    exact h2

theorem ParamsG.wf {ts : List Token} {is : List Identifier} (h : ParamsG ts is) : ∀ i ∈ is, i.WF := by
  induction h with
  | nil => simp
  | one h1 h2 => simpa using h2
  | cons h1 h2 h3 h4 ih =>
    simp only [List.mem_cons, forall_eq_or_imp]
    exact ⟨h2, ih⟩

/-- What is to be shown for `parseBlock n`. -/
def BlockPost (n : Nat) (stop : Token → Bool) (pre : List Token) (s : Stmts) : Res Stmts Block → Prop :=
  BPost pre s.all s (s.size + 2 ≤ n) fun nodes used s' =>
    ((toksBlock nodes).Sublist used ∧ wfBlock nodes) ∧
    (s'.cur = [] ∨ ∃ t r, s'.cur = t :: r ∧ stop t = true) ∧
    (errorFreeBlock nodes → ∃ L, Spans s L s' ∧ BlockG L nodes)

/-- The block parser `block` does what `parseBlock n` should do. -/
def BlockOk (n : Nat) (block : (Token → Bool) → Prog Block) : Prop :=
  ∀ stop pre s, BlockPost n stop pre s (exec (block stop) s)

/-- Running a block after the rest of the statement has been checked to be empty. -/
theorem emptyThenBlock {n : Nat} {block : (Token → Bool) → Prog Block} (hb : BlockOk n block)
    {α : Type} {stop : Token → Bool} {f : Block → Prog α} {pre : List Token} {C : List (List Token)} {s : Stmts}
    {Q : α → List Token → Stmts → Prop} {F : Prop} (hC : ∀ st ∈ s.later, st ∈ C)
    (hF : F → s.size + 2 ≤ n)
    (h : ∀ nodes used s', s.Moves used s' → s.cur = [] → (toksBlock nodes).Sublist used → wfBlock nodes →
      (s'.cur = [] ∨ ∃ t r, s'.cur = t :: r ∧ stop t = true) →
      (errorFreeBlock nodes → ∃ L, Spans s.advance L s' ∧ BlockG L nodes) →
      BPost (pre ++ used) C s' F (fun b used2 s'' => Q b (used ++ used2) s'') (exec (f nodes) s')) :
    BPost pre C s F Q (exec (do
      nextStatementShouldBeEmpty
      let b ← block stop
      f b) s) := by
  refine .bind .nextStatementShouldBeEmpty ?_
  rintro - used s' hm ⟨rfl, hc, rfl⟩
  refine .bind ((hb stop _ s.advance).mono (List.Sublist.refl _) ?_ ?_ fun _ _ _ _ h => h) ?_
  · intro st hst
    rcases s.advance_all st hst with h | h
    · exact .inl h
    · exact .inr (hC st h)
  · intro hf
    have := hF hf
    have := hm.size_le
    omega
  · rintro nodes used s' hm' ⟨⟨h1, hw⟩, h2, h3⟩
    have := h nodes used s' (by simpa using hm.trans hm') hc h1 hw h2 h3
    simpa using this

theorem parseImInYr_post {n : Nat} {block : (Token → Bool) → Prog Block} (hb : BlockOk n block)
    (first : Token) (pre cur : List Token) (later : List (List Token)) (hf : first ∈ pre)
    (hk : first.Is .IM_IN_YR) :
    BPost pre later ⟨cur, later⟩ (Stmts.size ⟨cur, later⟩ + 2 ≤ n)
      (fun node used s' => (node.toks.Sublist (first :: used) ∧ node.WF) ∧
        (node.ErrorFree → s'.cur = [] → ∃ L, Spans ⟨first :: cur, later⟩ L s'.advance ∧ NodeG L node))
      (exec (parseImInYr block n first) ⟨cur, later⟩) := by
  unfold parseImInYr
  refine .bind (EPost.next.toB _) ?_
  rintro o used - - ⟨cur', rfl, rfl, (⟨rfl, rfl, -, rfl⟩ | ⟨label, rfl, rfl, -⟩)⟩
  · exact .fail rfl (by simp [hf])
  · dsimp only
    split
    · rename_i hl
      rw [Token.isIdentifier_iff] at hl
      refine .bind (((parseIterationOperation_post n _ cur' later).mono (fun _ h => h)
        (by simp [Stmts.size, Stmts.tokens] <;> omega) fun _ _ _ _ h => h).toB _) ?_
      rintro op uop - - ⟨cur', rfl, rfl, hop⟩
      refine .bind (((parseConditional_post n _ cur' later).mono (fun _ h => h)
        (by simp [Stmts.size, Stmts.tokens] <;> omega) fun _ _ _ _ h => h).toB _) ?_
      rintro cond ucond - - ⟨cur', rfl, rfl, hcond⟩
      refine emptyThenBlock hb (by simp) (by simp [Stmts.size, Stmts.tokens] <;> omega) ?_
      rintro nodes used s' hm hc h1 hw h2 h3
      dsimp only at hc
      subst hc
      obtain ⟨cur', later'⟩ := s'
      refine .bind (EPost.next.toB _) ?_
      rintro o used' - - ⟨cur'', rfl, h5, (⟨rfl, rfl, -, rfl⟩ | ⟨c, rfl, rfl, -⟩)⟩
      · exact .fail rfl (by simp [hf])
      · refine .bind (EPost.next.toB _) ?_
        rintro o used' - - ⟨cur', rfl, rfl, (⟨rfl, rfl, -, rfl⟩ | ⟨endLabel, rfl, rfl, -⟩)⟩
        · exact .fail rfl (by simp)
        · dsimp only
          split
          · rename_i hl'
            rw [Token.isIdentifier_iff] at hl'
            refine .pure ⟨⟨?_, hk, hl, hop.wf, (hcond rfl).wf, hw, hl'⟩, ?_⟩
            · simp only [Node.toks, List.cons_append, List.nil_append]
              refine .cons_cons _ (.cons_cons _ ?_)
              refine List.Sublist.append ?_ (List.Sublist.append ?_ (List.Sublist.append h1 ?_))
              · cases hop with
                | none => simp
                | some _ _ _ => simp [LoopIterationOperation.toks]
              · cases hcond rfl <;> simp [LoopCondition.toks]
              · simp
            · intro he hc'
              dsimp only at hc'
              subst hc'
              obtain ⟨L, h6, h7⟩ := h3 he
              have hc : c.Is .IM_OUTTA_YR := by
                subst h5
                rcases h2 with h2 | ⟨t, r, h2, h8⟩
                · simp at h2
                · simp at h2
                  obtain ⟨rfl, -⟩ := h2
                  exact Token.isKeyword_iff.1 h8
              subst h5
              refine ⟨_, ?_, .loop hk hl hop (hcond rfl) h7 hc hl'⟩
              have s1 := Spans.advance (first :: label :: (uop ++ ucond)) [] later
              have s2 := Spans.advance [c, endLabel] [] later'
              simpa using (s1.trans h6).trans s2
          · exact .fail rfl (by simp)
    · exact .fail rfl (by simp)

theorem toks_params {ts : List Token} {is : List Identifier} (h : ParamsG ts is) :
    (is.flatMap (·.toks)).Sublist ts := by
  induction h with
  | nil => simp
  | one => simp
  | cons h1 h2 h3 h4 ih =>
    simp only [List.flatMap_cons]
    exact (List.Sublist.append (List.Sublist.refl _) (ih.cons _)).cons _

theorem parseHowIzI_post {n : Nat} {block : (Token → Bool) → Prog Block} (hb : BlockOk n block)
    (first : Token) (pre cur : List Token) (later : List (List Token)) (hf : first ∈ pre)
    (hk : first.Is .HOW_IZ_I) :
    BPost pre later ⟨cur, later⟩ (Stmts.size ⟨cur, later⟩ + 2 ≤ n)
      (fun node used s' => (node.toks.Sublist (first :: used) ∧ node.WF) ∧
        (node.ErrorFree → s'.cur = [] → ∃ L, Spans ⟨first :: cur, later⟩ L s'.advance ∧ NodeG L node))
      (exec (parseHowIzI block n first) ⟨cur, later⟩) := by
  unfold parseHowIzI
  refine .bind (EPost.next.toB _) ?_
  rintro o used - - ⟨cur', rfl, rfl, (⟨rfl, rfl, -, rfl⟩ | ⟨t, rfl, rfl, -⟩)⟩
  · exact .fail rfl (by simp [hf])
  · refine .bind ((Identifier.parse_post _ _ _ _ t (by simp)).toB _) ?_
    rintro i ui - - ⟨cur', rfl, rfl, h1, h2⟩
    refine .bind (((parseParameters_post n _ cur' later).mono (fun _ h => h)
      (by simp [Stmts.size, Stmts.tokens] <;> omega) fun _ _ _ _ h => h).toB _) ?_
    rintro params ups - - ⟨cur', rfl, rfl, hps⟩
    refine emptyThenBlock hb (by simp) (by simp [Stmts.size, Stmts.tokens] <;> omega) ?_
    rintro nodes used s' hm hc h3 hw h4 h5
    dsimp only at hc
    subst hc
    obtain ⟨cur', later'⟩ := s'
    refine .bind (EPost.next.toB _) ?_
    rintro o used' - - ⟨cur'', rfl, h6, (⟨rfl, rfl, -, rfl⟩ | ⟨c, rfl, rfl, -⟩)⟩
    · exact .fail rfl (by simp [hf])
    · dsimp only
      split
      · rename_i hc
        rw [Token.isKeyword_iff] at hc
        refine .bind .nextStatementShouldBeEmpty ?_
        rintro - used' s' - ⟨rfl, hc', rfl⟩
        dsimp only at hc'
        subst hc'
        refine .pure ⟨⟨?_, hk, h2, hps.wf, hw⟩, ?_⟩
        · simp only [Node.toks, List.cons_append, List.nil_append, ← h1]
          refine .cons_cons _ (.cons_cons _ ?_)
          refine List.Sublist.append (List.Sublist.refl _) (List.Sublist.append (toks_params hps) ?_)
          exact h3.trans (by simp)
        · intro he hc'
          obtain ⟨L, h7, h8⟩ := h5 he
          subst h6
          refine ⟨_, ?_, .function hk h2 hps h8 hc⟩
          have s1 := Spans.advance (first :: t :: (ui ++ ups)) [] later
          have s2 := Spans.advance [c] [] later'
          generalize Stmts.advance ⟨[], later'⟩ = s3 at hc' s2 ⊢
          obtain ⟨c3, l3⟩ := s3
          dsimp only at hc'
          subst hc'
          have s3 := Spans.advance [] [] l3
          simpa [← h1] using ((s1.trans h7).trans s2).trans s3
      · exact .fail rfl (by simp)

theorem parseOmgs_post {n : Nat} {block : (Token → Bool) → Prog Block} (hb : BlockOk n block) (m : Nat)
    (pre : List Token) (s : Stmts) (C : List (List Token)) (hC : ∀ st ∈ s.later, st ∈ C) :
    BPost pre C s (s.size + 2 ≤ n ∧ s.tokens.length < m)
      (fun omgs used s' => ((toksOmgs omgs).Sublist used ∧ wfOmgs omgs) ∧
        (errorFreeOmgs omgs → ∃ L, Spans s L s' ∧ OmgsG L omgs))
      (exec (parseOmgs block n m) s) := by
  induction m generalizing pre s with
  | zero => exact fun h => Nat.not_lt_zero _ h.2
  | succ m ih =>
    obtain ⟨cur, later⟩ := s
    unfold parseOmgs
    refine .bind (EPost.nextIf.toB _) ?_
    rintro o used - - ⟨cur', rfl, rfl, (⟨rfl, rfl, -, -⟩ | ⟨t, rfl, rfl, -, ht⟩)⟩
    · exact .pure ⟨⟨by simp [toksOmgs], trivial⟩, fun _ => ⟨[], Spans.refl _, .nil⟩⟩
    · rw [Token.isKeyword_iff] at ht
      refine .bind (EPost.next.toB _) ?_
      rintro o used' - - ⟨cur', rfl, rfl, (⟨rfl, rfl, -, rfl⟩ | ⟨u, rfl, rfl, -⟩)⟩
      · exact .fail rfl (by simp)
      · refine .bind (((parseExpr_post' n u _ cur' later (by simp)).mono (fun _ h => h)
          (by simp [Stmts.size, Stmts.tokens] <;> omega) fun _ _ _ _ h => h).toB _) ?_
        rintro e ue - - ⟨cur', rfl, rfl, h1, h2, h3⟩
        refine emptyThenBlock hb (by simpa using hC) (by simp [Stmts.size, Stmts.tokens] <;> omega) ?_
        rintro nodes used s' hm hc h4 hw h5 h6
        dsimp only at hc
        subst hc
        have hsz := hm.size_le
        have hlen := congrArg List.length hm.1
        simp only [List.length_append] at hlen
        refine .bind ((ih _ s' fun st hst => hC st (hm.2.subset hst)).mono (List.Sublist.refl _)
          (fun _ h => .inr h) ?_ fun _ _ _ _ h => h) ?_
        · simp only [Stmts.size, Stmts.tokens, List.length_append, List.length_cons, List.length_nil] at *
          omega
        · rintro omgs used' s'' hm' ⟨⟨h7, hw'⟩, h8⟩
          refine .pure ⟨⟨?_, ht, h2, hw, hw'⟩, ?_⟩
          · simp only [toksOmgs, List.cons_append, List.nil_append, ← h1, List.append_nil]
            exact .cons_cons _ (.cons_cons _ (List.Sublist.append (List.Sublist.refl _)
              (List.Sublist.append h4 h7)))
          · rintro ⟨he1, he2⟩
            obtain ⟨L, h9, h10⟩ := h6 he1
            obtain ⟨L', h11, h12⟩ := h8 he2
            refine ⟨_, ?_, .cons ht h2 h10 h12⟩
            have s1 := Spans.advance (t :: u :: ue) [] later
            simpa [← h1] using (s1.trans h9).trans h11

theorem parseOmgWtf_post {n : Nat} {block : (Token → Bool) → Prog Block} (hb : BlockOk n block)
    (pre : List Token) (s : Stmts) (C : List (List Token)) (hC : ∀ st ∈ s.later, st ∈ C) :
    BPost pre C s (s.size + 2 ≤ n)
      (fun o used s' => ((toksOmgWtf o).Sublist used ∧ wfOmgWtf o) ∧
        (errorFreeOmgWtf o → ∃ L, Spans s L s' ∧ OmgWtfG L o))
      (exec (parseOmgWtf block) s) := by
  obtain ⟨cur, later⟩ := s
  unfold parseOmgWtf
  refine .bind (EPost.nextIf.toB _) ?_
  rintro o used - - ⟨cur', rfl, rfl, (⟨rfl, rfl, -, -⟩ | ⟨t, rfl, rfl, -, ht⟩)⟩
  · exact .pure ⟨⟨by simp [toksOmgWtf], trivial⟩, fun _ => ⟨[], Spans.refl _, .none⟩⟩
  · rw [Token.isKeyword_iff] at ht
    refine emptyThenBlock hb (by simpa using hC) (by simp [Stmts.size, Stmts.tokens] <;> omega) ?_
    rintro nodes used s' hm hc h4 hw h5 h6
    dsimp only at hc
    subst hc
    refine .pure ⟨⟨?_, ht, hw⟩, ?_⟩
    · simpa [toksOmgWtf] using h4
    · intro he
      obtain ⟨L, h9, h10⟩ := h6 he
      exact ⟨_, by simpa using (Spans.advance [t] [] later).trans h9, .some ht h10⟩

theorem parseYaRly_post {n : Nat} {block : (Token → Bool) → Prog Block} (hb : BlockOk n block)
    (pre : List Token) (s : Stmts) (C : List (List Token)) (hC : ∀ st ∈ s.later, st ∈ C) :
    BPost pre C s (s.size + 2 ≤ n)
      (fun o used s' => ((toksYaRly o).Sublist used ∧ wfYaRly o) ∧
        (errorFreeYaRly o → ∃ L, Spans s L s' ∧ YaRlyG L o))
      (exec (parseYaRly block) s) := by
  obtain ⟨cur, later⟩ := s
  unfold parseYaRly
  refine .bind (EPost.nextIf.toB _) ?_
  rintro o used - - ⟨cur', rfl, rfl, (⟨rfl, rfl, -, -⟩ | ⟨t, rfl, rfl, -, ht⟩)⟩
  · exact .pure ⟨⟨by simp [toksYaRly], trivial⟩, fun _ => ⟨[], Spans.refl _, .none⟩⟩
  · rw [Token.isKeyword_iff] at ht
    refine emptyThenBlock hb (by simpa using hC) (by simp [Stmts.size, Stmts.tokens] <;> omega) ?_
    rintro nodes used s' hm hc h4 hw h5 h6
    dsimp only at hc
    subst hc
    refine .pure ⟨⟨?_, ht, hw⟩, ?_⟩
    · simpa [toksYaRly] using h4
    · intro he
      obtain ⟨L, h9, h10⟩ := h6 he
      exact ⟨_, by simpa using (Spans.advance [t] [] later).trans h9, .some ht h10⟩

theorem parseNoWai_post {n : Nat} {block : (Token → Bool) → Prog Block} (hb : BlockOk n block)
    (pre : List Token) (s : Stmts) (C : List (List Token)) (hC : ∀ st ∈ s.later, st ∈ C) :
    BPost pre C s (s.size + 2 ≤ n)
      (fun o used s' => ((toksNoWai o).Sublist used ∧ wfNoWai o) ∧
        (errorFreeNoWai o → ∃ L, Spans s L s' ∧ NoWaiG L o))
      (exec (parseNoWai block) s) := by
  obtain ⟨cur, later⟩ := s
  unfold parseNoWai
  refine .bind (EPost.nextIf.toB _) ?_
  rintro o used - - ⟨cur', rfl, rfl, (⟨rfl, rfl, -, -⟩ | ⟨t, rfl, rfl, -, ht⟩)⟩
  · exact .pure ⟨⟨by simp [toksNoWai], trivial⟩, fun _ => ⟨[], Spans.refl _, .none⟩⟩
  · rw [Token.isKeyword_iff] at ht
    refine emptyThenBlock hb (by simpa using hC) (by simp [Stmts.size, Stmts.tokens] <;> omega) ?_
    rintro nodes used s' hm hc h4 hw h5 h6
    dsimp only at hc
    subst hc
    refine .pure ⟨⟨?_, ht, hw⟩, ?_⟩
    · simpa [toksNoWai] using h4
    · intro he
      obtain ⟨L, h9, h10⟩ := h6 he
      exact ⟨_, by simpa using (Spans.advance [t] [] later).trans h9, .some ht h10⟩

theorem parseMebbes_post {n : Nat} {block : (Token → Bool) → Prog Block} (hb : BlockOk n block) (m : Nat)
    (pre : List Token) (s : Stmts) (C : List (List Token)) (hC : ∀ st ∈ s.later, st ∈ C) :
    BPost pre C s (s.size + 2 ≤ n ∧ s.tokens.length < m)
      (fun mebbes used s' => ((toksMebbes mebbes).Sublist used ∧ wfMebbes mebbes) ∧
        (errorFreeMebbes mebbes → ∃ L, Spans s L s' ∧ MebbesG L mebbes))
      (exec (parseMebbes block n m) s) := by
  induction m generalizing pre s with
  | zero => exact fun h => Nat.not_lt_zero _ h.2
  | succ m ih =>
    obtain ⟨cur, later⟩ := s
    unfold parseMebbes
    refine .bind (EPost.nextIfEq.toB _) ?_
    rintro o used - - ⟨cur', rfl, rfl, (⟨rfl, rfl, -, -⟩ | ⟨t, rfl, rfl, -, ht⟩)⟩
    · exact .pure ⟨⟨by simp [toksMebbes], trivial⟩, fun _ => ⟨[], Spans.refl _, .nil⟩⟩
    · have ht : t.Is .MEBBE := ht
      refine .bind (EPost.next.toB _) ?_
      rintro o used' - - ⟨cur', rfl, rfl, (⟨rfl, rfl, -, rfl⟩ | ⟨u, rfl, rfl, -⟩)⟩
      · exact .fail rfl (by simp)
      · refine .bind (((parseExpr_post' n u _ cur' later (by simp)).mono (fun _ h => h)
          (by simp [Stmts.size, Stmts.tokens] <;> omega) fun _ _ _ _ h => h).toB _) ?_
        rintro e ue - - ⟨cur', rfl, rfl, h1, h2, h3⟩
        refine emptyThenBlock hb (by simpa using hC) (by simp [Stmts.size, Stmts.tokens] <;> omega) ?_
        rintro nodes used s' hm hc h4 hw h5 h6
        dsimp only at hc
        subst hc
        have hsz := hm.size_le
        have hlen := congrArg List.length hm.1
        simp only [List.length_append] at hlen
        refine .bind ((ih _ s' fun st hst => hC st (hm.2.subset hst)).mono (List.Sublist.refl _)
          (fun _ h => .inr h) ?_ fun _ _ _ _ h => h) ?_
        · simp only [Stmts.size, Stmts.tokens, List.length_append, List.length_cons, List.length_nil] at *
          omega
        · rintro mebbes used' s'' hm' ⟨⟨h7, hw'⟩, h8⟩
          refine .pure ⟨⟨?_, ht, h2, hw, hw'⟩, ?_⟩
          · simp only [toksMebbes, List.cons_append, List.nil_append, ← h1, List.append_nil]
            exact .cons_cons _ (.cons_cons _ (List.Sublist.append (List.Sublist.refl _)
              (List.Sublist.append h4 h7)))
          · rintro ⟨he1, he2⟩
            obtain ⟨L, h9, h10⟩ := h6 he1
            obtain ⟨L', h11, h12⟩ := h8 he2
            refine ⟨_, ?_, .cons ht h2 h10 h12⟩
            have s1 := Spans.advance (t :: u :: ue) [] later
            simpa [← h1] using (s1.trans h9).trans h11

end Lol
