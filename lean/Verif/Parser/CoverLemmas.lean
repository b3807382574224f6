import Verif.Parser.CoverSpec
import Verif.Parser.CountLemmas

/-! # Statements that leave no token in the tree: lemmas -/

namespace Lol

/-! ## Errors hold a token of their statement -/

/-- The error, if the failure is one, holds one of the tokens. -/
def Fail.Holds (f : Fail) (ts : List Token) : Prop := ∀ e, f = .error e → ∃ t ∈ ts, t ∈ e.toks

theorem Fail.Holds.sub {f : Fail} {ts us : List Token} (h : f.Holds ts) (hs : ∀ t ∈ ts, t ∈ us) : f.Holds us :=
  fun e he => have ⟨t, h1, h2⟩ := h e he; ⟨t, hs t h1, h2⟩

theorem holds_one {e : ASTError} {t : Token} {ts : List Token} (h1 : e.toks = [t]) (h2 : t ∈ ts) :
    (Fail.error e).Holds ts := by
  rintro _ ⟨⟩
  exact ⟨t, h2, by simp [h1]⟩

theorem holds_panic (p : PanicSite) (ts : List Token) : (Fail.panic p).Holds ts := by
  rintro _ ⟨⟩

theorem IdentFail.holds {rest ts : List Token} {f : Fail} (h : IdentFail rest ts f) : f.Holds ts := by
  cases h <;> exact holds_one rfl (by simp)

theorem AccessFail.holds {rest ts : List Token} {f : Fail} (h : AccessFail rest ts f) : f.Holds ts := by
  cases h with
  | name h => exact h.holds
  | slotEnd => exact holds_one rfl (by simp)
  | slot _ _ h => exact h.holds.sub (by simp +contextual)

theorem ExprFail.holds {rest ts : List Token} {f : Fail} (h : ExprFail rest ts f) : f.Holds ts := by
  induction h with
  | access _ h => exact h.holds
  | maek => exact holds_panic _ _
  | unary _ _ ih | binaryLeft _ _ ih => exact ih.sub (by simp +contextual)
  | binaryRight _ _ _ _ _ _ ih => exact ih.sub (by simp +contextual)
  | nary _ _ _ _ ih => exact ih.sub (by simp +contextual)
  | _ => exact holds_one rfl (by simp)

theorem ArgsFail.holds {rest ts : List Token} {f : Fail} (h : ArgsFail rest ts f) : f.Holds ts := by
  induction h with
  | yrEnd => exact holds_one rfl (by simp)
  | argument _ h => exact h.holds.sub (by simp +contextual)
  | later _ _ _ _ _ ih => exact ih.sub (by simp +contextual)

theorem SimpleFail.holds {rest ts : List Token} {f : Fail} (h : SimpleFail rest ts f) : f.Holds ts := by
  cases h with
  | declarationSrs _ _ h => exact h.holds.sub (by simp +contextual)
  | declarationValue _ _ _ _ h => exact h.holds.sub (by simp +contextual)
  | access _ h => exact h.holds
  | accessThen => exact holds_panic _ _
  | assignmentValue _ _ h => exact h.holds.sub (by simp +contextual)
  | setSlotName _ _ h => exact h.holds.sub (by simp +contextual)
  | setSlotValue _ _ _ _ h => exact h.holds.sub (by simp +contextual)
  | visible _ _ _ h => exact h.holds.sub (by simp +contextual)
  | gimmeh _ h => exact h.holds.sub (by simp +contextual)
  | foundYr _ h => exact h.holds.sub (by simp +contextual)
  | callName _ h => exact h.holds.sub (by simp +contextual)
  | callArguments _ _ h => exact h.holds.sub (by simp +contextual)
  | expression _ _ _ h => exact h.holds
  | setSlotNoItz => exact holds_one rfl (by simp [Identifier.toks])
  | _ => exact holds_one rfl (by simp)

theorem IterFail.holds {rest ts : List Token} {f : Fail} (h : IterFail rest ts f) : f.Holds ts := by
  cases h with
  | name _ _ h => exact h.holds.sub (by simp +contextual)
  | _ => exact holds_one rfl (by simp)

theorem CondFail.holds {rest ts : List Token} {f : Fail} (h : CondFail rest ts f) : f.Holds ts := by
  cases h with
  | expr _ h => exact h.holds.sub (by simp +contextual)
  | _ => exact holds_one rfl (by simp)

theorem ParamsFail.holds {rest ts : List Token} {f : Fail} (h : ParamsFail rest ts f) : f.Holds ts := by
  induction h with
  | nameEnd => exact holds_one rfl (by simp)
  | name _ h => exact h.holds.sub (by simp +contextual)
  | later _ _ _ _ ih => exact ih.sub (by simp +contextual)

theorem HeadFail.holds {rest ts : List Token} {f : Fail} (h : HeadFail rest ts f) : f.Holds ts := by
  cases h with
  | iteration _ _ h => exact h.holds.sub (by simp +contextual)
  | condition _ _ _ h => exact h.holds.sub (by simp +contextual)
  | name _ h => exact h.holds.sub (by simp +contextual)
  | params _ _ h => exact h.holds.sub (by simp +contextual)
  | _ => exact holds_one rfl (by simp)

/-! ## Statements covered by tokens -/

/-- The statement leaves one of the tokens, or is a closing one. -/
def Shown (ks st : List Token) : Prop := st = [] ∨ (∃ t ∈ st, t ∈ ks) ∨ Closing st

/-- The statements of `A` before `l` are shown by the tokens, or belong to a construct that fails with one of the
errors. -/
def CoversTo (ks : List Token) (es : List ASTError) (A l : List (List Token)) : Prop :=
  ∃ L, A = L ++ l ∧ ∀ i st, L[i]? = some st → Shown ks st ∨ InFailed es A i

theorem Shown.mono {ks ks' st : List Token} (h : Shown ks st) (hs : ∀ t ∈ ks, t ∈ ks') : Shown ks' st :=
  h.imp id (Or.imp (fun ⟨t, h1, h2⟩ => ⟨t, h1, hs t h2⟩) id)

theorem InFailed.after {es : List ASTError} {A : List (List Token)} {i : Nat} (h : InFailed es A i)
    (B : List (List Token)) : InFailed es (B ++ A) (B.length + i) := by
  obtain ⟨first, heading, later, h, e, s, rfl, h2, h3, h4, h5, h6⟩ := h
  refine ⟨B ++ first, heading, later, h, e, s, by simp, by simp; omega, h3, h4, ?_, h6⟩
  simp only [List.length_append] at h5 ⊢
  omega

theorem InFailed.mono {es es' : List ASTError} {A : List (List Token)} {i : Nat} (h : InFailed es A i)
    (hs : ∀ e ∈ es, e ∈ es') : InFailed es' A i := by
  obtain ⟨first, heading, later, h, e, s, h1, h2, h3, h4, h5, h6⟩ := h
  exact ⟨first, heading, later, h, e, s, h1, h2, h3, h4, h5, hs e h6⟩

theorem CoversTo.nil (ks : List Token) (es : List ASTError) (A : List (List Token)) : CoversTo ks es A A :=
  ⟨[], rfl, by simp⟩

theorem CoversTo.one {ks st : List Token} (h : Shown ks st) (es : List ASTError) (l : List (List Token)) :
    CoversTo ks es (st :: l) l := by
  refine ⟨[st], rfl, fun i st' hi => ?_⟩
  cases i with
  | zero => simp at hi; exact .inl (hi ▸ h)
  | succ i => simp at hi

theorem CoversTo.mono {ks ks' : List Token} {es es' : List ASTError} {A l : List (List Token)} (h : CoversTo ks es A l)
    (hs : ∀ t ∈ ks, t ∈ ks') (he : ∀ e ∈ es, e ∈ es') : CoversTo ks' es' A l := by
  obtain ⟨L, h1, h2⟩ := h
  exact ⟨L, h1, fun i st hi => (h2 i st hi).imp (·.mono hs) (·.mono he)⟩

theorem CoversTo.trans {ks : List Token} {es : List ASTError} {A l l' : List (List Token)} (h : CoversTo ks es A l)
    (h' : CoversTo ks es l l') : CoversTo ks es A l' := by
  obtain ⟨L, rfl, h2⟩ := h
  obtain ⟨M, rfl, h3⟩ := h'
  refine ⟨L ++ M, by simp, fun i st hi => ?_⟩
  by_cases hlt : i < L.length
  · rw [List.getElem?_append_left hlt] at hi
    exact h2 i st hi
  · rw [List.getElem?_append_right (by omega)] at hi
    refine (h3 _ st hi).imp id fun h => ?_
    have := h.after L
    rwa [show L.length + (i - L.length) = i by omega] at this

theorem CoversTo.suffix {ks : List Token} {es : List ASTError} {A l : List (List Token)} (h : CoversTo ks es A l) :
    l <:+ A := by
  obtain ⟨L, rfl, -⟩ := h
  exact ⟨L, rfl⟩

/-- The tokens of the next statement are added. -/
theorem CoversTo.take {ks : List Token} {es : List ASTError} {A l : List (List Token)} (h : CoversTo ks es A l) :
    CoversTo (ks ++ (Stmts.of l).cur) es A (Stmts.of l).later := by
  cases l with
  | nil => exact h.mono (by simp +contextual) (fun _ h => h)
  | cons c l =>
    refine (h.mono (by simp +contextual) (fun _ h => h)).trans (.one ?_ _ l)
    cases c with
    | nil => exact .inl rfl
    | cons t c => exact .inr (.inl ⟨t, by simp, by simp [Stmts.of]⟩)

/-- A construct that fails. -/
theorem covers_failed {ts : List Token} {later : List (List Token)} {h : Heading} {e : ASTError} {s : Stmts}
    (hh : HeadR [] ts h) (hn : NodeR ⟨ts, later⟩ (.error e s)) (hs : s.later <:+ later) (ks : List Token) :
    CoversTo ks [e] (ts :: later) s.later := by
  obtain ⟨L, hL⟩ := hs
  refine ⟨ts :: L, by simp [hL], fun i st hi => .inr ⟨[], ts, later, h, e, s, rfl, by simp, hh, hn, ?_, by simp⟩⟩
  have := (List.getElem?_eq_some_iff.1 hi).1
  rw [← hL]
  simp only [List.length_cons, List.length_append] at this ⊢
  omega

theorem of_cons {l : List (List Token)} {t : Token} {c : List Token} {m : List (List Token)}
    (h : (⟨t :: c, m⟩ : Stmts) = .of l) : l = (t :: c) :: m := by
  cases l with
  | nil => simp [Stmts.of] at h
  | cons d l => simp only [Stmts.of, Stmts.mk.injEq] at h; rw [h.1, h.2]

theorem of_later_suffix (l : List (List Token)) : (Stmts.of l).later <:+ l := by
  cases l with
  | nil => exact List.suffix_refl _
  | cons c l => exact List.suffix_cons _ _

theorem later_suffix {s : Stmts} {l : List (List Token)} (h : s = .of l) : s.later <:+ l := h ▸ of_later_suffix l

/-- What is said about the outcome of one statement. -/
def Read.Covered (s : Stmts) : Read Node → Prop
  | .ok n s' => CoversTo (n.toks ++ s'.cur) n.errors s.all s'.later
  | .error e s' => CoversTo (e.toks ++ s'.cur) [e] s.all s'.later
  | .panic _ => True

/-- What is said about the outcome of a part that starts with the statements `A`. -/
def Read.CoveredPart {α : Type} (toks : α → List Token) (errs : α → List ASTError) (A : List (List Token)) :
    Read α → Prop
  | .ok a s' => ∃ l, s' = .of l ∧ CoversTo (toks a) (errs a) A l
  | .error _ s' => s'.later <:+ A
  | .panic _ => True

theorem coveredPart_fail {α : Type} {toks : α → List Token} {errs : α → List ASTError} {f : Fail} {s : Stmts}
    {A : List (List Token)}
    (h : s.later <:+ A) : (f.read s : Read α).CoveredPart toks errs A := by
  cases f with
  | error e => exact h
  | panic p => trivial

theorem of_all (s : Stmts) : s = .of s.all := rfl

/-- A part after a first statement and a block. -/
theorem Read.CoveredPart.map {α β : Type} {toks : α → List Token} {errs : α → List ASTError}
    {toks' : β → List Token} {errs' : β → List ASTError} {A l : List (List Token)} {ks : List Token}
    {es : List ASTError} {r : Read α} (h : r.CoveredPart toks errs l) {f : α → β} (hA : CoversTo ks es A l)
    (hf : ∀ a, ∀ t, t ∈ ks ∨ t ∈ toks a → t ∈ toks' (f a)) (he : ∀ a, ∀ e, e ∈ es ∨ e ∈ errs a → e ∈ errs' (f a)) :
    (r.map f).CoveredPart toks' errs' A := by
  cases r with
  | ok a s =>
    obtain ⟨m, h1, h2⟩ := h
    exact ⟨m, h1, (hA.mono (fun t ht => hf a t (.inl ht)) (fun t ht => he a t (.inl ht))).trans
      (h2.mono (fun t ht => hf a t (.inr ht)) (fun t ht => he a t (.inr ht)))⟩
  | error e s => exact List.IsSuffix.trans h hA.suffix
  | panic p => trivial

theorem errorsBlock_append (a b : Block) : errorsBlock (a ++ b) = errorsBlock a ++ errorsBlock b := by
  induction a with
  | nil => rfl
  | cons n a ih => simp [errorsBlock, ih]

theorem toks_leftover (c : List Token) : toksBlock (leftoverNodes c) = c := by
  unfold leftoverNodes
  split <;> simp_all [toksBlock, Node.toks, ASTError.toks]

/-- The failure of a part is the failure of the construct. -/
theorem covered_failed {f : Fail} {s : Stmts} {ts : List Token} {later : List (List Token)} {h : Heading}
    (hh : HeadR [] ts h) (hn : NodeR ⟨ts, later⟩ (f.read s)) (hs : ∀ e, f = .error e → s.later <:+ later) :
    (f.read s : Read Node).Covered ⟨ts, later⟩ := by
  cases f with
  | error e => exact covers_failed hh hn (hs e rfl) _
  | panic p => trivial

theorem Read.CoveredPart.failed {α : Type} {toks : α → List Token} {errs : α → List ASTError} {f : Fail} {s : Stmts}
    {A B : List (List Token)} (h : (f.read s : Read α).CoveredPart toks errs A) (hA : A <:+ B) :
    ∀ e, f = .error e → s.later <:+ B := by
  rintro e rfl
  exact List.IsSuffix.trans h hA

theorem covered_simpleFail {f : Fail} {ts rest : List Token} {later : List (List Token)} (h : f.Holds ts) :
    (f.read ⟨rest, later⟩ : Read Node).Covered ⟨ts ++ rest, later⟩ := by
  cases f with
  | error e =>
    obtain ⟨t, h1, h2⟩ := h e rfl
    exact .one (.inr (.inl ⟨t, by simp [h1], by simp [h2]⟩)) _ _
  | panic p => trivial

mutual

theorem NodeR.covered {s : Stmts} {r : Read Node} : NodeR s r → r.Covered s
  | @NodeR.simple ts rest node later h => by
    obtain ⟨t, us, rfl, h1, -, -⟩ := h.first
    exact .one (.inr (.inl ⟨t, by simp, by simp [List.mem_of_mem_head? h1]⟩)) _ _
  | .simpleFail h => covered_simpleFail h.holds
  | @NodeR.hai t version later h => by
    have : CoversTo (t :: version) [] ((t :: version) :: later) later := .one (.inr (.inl ⟨t, by simp, by simp⟩)) _ _
    exact this.take
  | .headFail h => covered_simpleFail h.holds
  | @NodeR.headLeft ts rest h later h1 h2 => by
    obtain ⟨t, r, rfl⟩ := List.exists_cons_of_ne_nil h2
    have : CoversTo (t :: r) [.tooManyTokens (t :: r)] ((ts ++ t :: r) :: later) later :=
      .one (.inr (.inl ⟨t, by simp, by simp⟩)) _ _
    exact this.take
  | @NodeR.loop ts t label op cond later body c endLabel rest l h1 h2 h3 => by
    obtain ⟨m, e1, ih⟩ := h2.covered later rfl
    obtain ⟨r, rfl⟩ := h1.loop_first
    rw [of_cons e1] at ih
    refine CoversTo.trans (.one (.inr (.inl ⟨t, by simp, by simp [Node.toks]⟩)) _ _)
      ((ih.mono ?_ (by simp +contextual [Node.errors])).trans
        (.one (.inr (.inl ⟨endLabel, by simp, by simp [Node.toks]⟩)) _ _))
    intro u hu
    simp only [Node.toks, List.mem_append, List.mem_cons]
    simp [hu]
  | .loopPanic _ _ => trivial
  | .loopEnd h1 h2 => by
    obtain ⟨m, e1, ih⟩ := h2.covered _ rfl
    exact covers_failed h1 (.loopEnd h1 h2) ((later_suffix e1).trans ih.suffix) _
  | .loopLabelEnd h1 h2 => by
    obtain ⟨m, e1, ih⟩ := h2.covered _ rfl
    exact covers_failed h1 (.loopLabelEnd h1 h2) ((later_suffix e1).trans ih.suffix) _
  | .loopLabel h1 h2 h3 => by
    obtain ⟨m, e1, ih⟩ := h2.covered _ rfl
    exact covers_failed h1 (.loopLabel h1 h2 h3) ((later_suffix e1).trans ih.suffix) _
  | @NodeR.function ts t i params later body c l h1 h2 => by
    obtain ⟨m, e1, ih⟩ := h2.covered _ rfl
    obtain ⟨r, rfl⟩ := h1.function_first
    rw [of_cons e1] at ih
    have hc : Closing [c] := by
      rcases h2.stop _ _ rfl with h | ⟨t, r, h, k, hk, ht⟩
      · simp at h
      · simp only [List.cons.injEq] at h
        simp only [closeFunction, List.mem_singleton] at hk
        exact ⟨c, rfl, .inr (by rw [h.1, ← hk]; exact ht)⟩
    have : CoversTo (Node.toks (.howIzI t i params body)) (errorsBlock body) ((t :: r) :: later) l := by
      refine CoversTo.trans (.one (.inr (.inl ⟨t, by simp, by simp [Node.toks]⟩)) _ _)
        ((ih.mono ?_ (by simp +contextual [Node.errors])).trans (.one (.inr (.inr hc)) _ _))
      intro u hu
      simp only [Node.toks, List.mem_append, List.mem_cons]
      simp [hu]
    exact this.take
  | .functionPanic _ _ => trivial
  | .functionEnd h1 h2 => by
    obtain ⟨m, e1, ih⟩ := h2.covered _ rfl
    exact covers_failed h1 (.functionEnd h1 h2) ((later_suffix e1).trans ih.suffix) _
  | .functionLeft h1 h2 h3 => by
    obtain ⟨m, e1, ih⟩ := h2.covered _ rfl
    exact covers_failed h1 (.functionLeft h1 h2 h3)
      ((of_later_suffix _).trans ((later_suffix e1).trans ih.suffix)) _
  | @NodeR.switch ts t later omgs s1 dflt c l h1 h2 h3 h4 => by
    obtain ⟨m, e1, ih⟩ := h2.covered _ rfl
    obtain ⟨m', e2, ih'⟩ := h3.covered _ e1
    obtain ⟨r, rfl⟩ := h1.switch_first
    rw [of_cons e2] at ih'
    have : CoversTo (Node.toks (.wtf t omgs dflt)) (errorsOmgs omgs ++ errorsOmgWtf dflt) ((t :: r) :: later) l := by
      refine CoversTo.trans (.one (.inr (.inl ⟨t, by simp, by simp [Node.toks]⟩)) _ _)
        (((ih.mono ?_ ?_).trans (ih'.mono ?_ ?_)).trans (.one (.inr (.inr ⟨c, rfl, .inl h4⟩)) _ _)) <;>
      · intro u hu
        simp only [Node.toks, Node.errors, List.mem_append, List.mem_cons]
        simp [hu]
    exact this.take
  | .switchCases h1 h2 => by
    have ih := h2.covered _ rfl
    exact covered_failed h1 (.switchCases h1 h2) (ih.failed (List.suffix_refl _))
  | .switchDefault h1 h2 h3 => by
    obtain ⟨m, e1, ih⟩ := h2.covered _ rfl
    have ih' := h3.covered _ e1
    exact covered_failed h1 (.switchDefault h1 h2 h3) (ih'.failed ih.suffix)
  | .switchEnd h1 h2 h3 => by
    obtain ⟨m, e1, ih⟩ := h2.covered _ rfl
    obtain ⟨m', e2, ih'⟩ := h3.covered _ e1
    exact covers_failed h1 (.switchEnd h1 h2 h3) (((later_suffix e2).trans ih'.suffix).trans ih.suffix) _
  | .switchOther h1 h2 h3 h4 => by
    obtain ⟨m, e1, ih⟩ := h2.covered _ rfl
    obtain ⟨m', e2, ih'⟩ := h3.covered _ e1
    exact covers_failed h1 (.switchOther h1 h2 h3 h4) (((later_suffix e2).trans ih'.suffix).trans ih.suffix) _
  | .switchLeft h1 h2 h3 h4 h5 => by
    obtain ⟨m, e1, ih⟩ := h2.covered _ rfl
    obtain ⟨m', e2, ih'⟩ := h3.covered _ e1
    exact covers_failed h1 (.switchLeft h1 h2 h3 h4 h5)
      ((of_later_suffix _).trans (((later_suffix e2).trans ih'.suffix).trans ih.suffix)) _
  | @NodeR.conditional ts t later yaRly s1 mebbes s2 noWai c rest l h1 h2 h3 h4 h5 => by
    obtain ⟨m, e1, ih⟩ := h2.covered _ rfl
    obtain ⟨m', e2, ih'⟩ := h3.covered _ e1
    obtain ⟨m'', e3, ih''⟩ := h4.covered _ e2
    obtain ⟨r, rfl⟩ := h1.conditional_first
    rw [of_cons e3] at ih''
    have hc : Shown (Node.toks (.oRly t yaRly noWai mebbes) ++ rest) (c :: rest) := by
      cases rest with
      | nil => exact .inr (.inr ⟨c, rfl, .inl h5⟩)
      | cons u rest => exact .inr (.inl ⟨u, by simp, by simp⟩)
    refine CoversTo.trans (.one (.inr (.inl ⟨t, by simp, by simp [Node.toks]⟩)) _ _)
      (((ih.mono ?_ ?_).trans ((ih'.mono ?_ ?_).trans (ih''.mono ?_ ?_))).trans (.one hc _ _)) <;>
    · intro u hu
      simp only [Node.toks, Node.errors, List.mem_append, List.mem_cons]
      simp [hu]
  | .conditionalYes h1 h2 => by
    have ih := h2.covered _ rfl
    exact covered_failed h1 (.conditionalYes h1 h2) (ih.failed (List.suffix_refl _))
  | .conditionalMaybe h1 h2 h3 => by
    obtain ⟨m, e1, ih⟩ := h2.covered _ rfl
    have ih' := h3.covered _ e1
    exact covered_failed h1 (.conditionalMaybe h1 h2 h3) (ih'.failed ih.suffix)
  | .conditionalNo h1 h2 h3 h4 => by
    obtain ⟨m, e1, ih⟩ := h2.covered _ rfl
    obtain ⟨m', e2, ih'⟩ := h3.covered _ e1
    have ih'' := h4.covered _ e2
    exact covered_failed h1 (.conditionalNo h1 h2 h3 h4) (ih''.failed (ih'.suffix.trans ih.suffix))
  | .conditionalEnd h1 h2 h3 h4 => by
    obtain ⟨m, e1, ih⟩ := h2.covered _ rfl
    obtain ⟨m', e2, ih'⟩ := h3.covered _ e1
    obtain ⟨m'', e3, ih''⟩ := h4.covered _ e2
    exact covers_failed h1 (.conditionalEnd h1 h2 h3 h4)
      (((later_suffix e3).trans ih''.suffix).trans (ih'.suffix.trans ih.suffix)) _
  | .conditionalOther h1 h2 h3 h4 h5 => by
    obtain ⟨m, e1, ih⟩ := h2.covered _ rfl
    obtain ⟨m', e2, ih'⟩ := h3.covered _ e1
    obtain ⟨m'', e3, ih''⟩ := h4.covered _ e2
    exact covers_failed h1 (.conditionalOther h1 h2 h3 h4 h5)
      (((later_suffix e3).trans ih''.suffix).trans (ih'.suffix.trans ih.suffix)) _

theorem OmgsR.covered {s : Stmts} {r : Read (List WtfOmg)} :
    OmgsR s r → ∀ A, s = .of A → r.CoveredPart toksOmgs errorsOmgs A
  | .nil _ => fun A hA => ⟨A, hA, .nil _ _ _⟩
  | .valueEnd _ => fun A hA => by rw [of_cons hA]; exact List.suffix_cons _ _
  | .value _ _ => fun A hA => by rw [of_cons hA]; exact coveredPart_fail (List.suffix_cons _ _)
  | .left _ _ _ _ => fun A hA => by
    rw [of_cons hA]; exact (of_later_suffix _).trans (List.suffix_cons _ _)
  | .body _ _ _ => fun _ _ => trivial
  | @OmgsR.cons t e l nodes s r h1 h2 h3 h4 => fun A hA => by
    obtain ⟨m, e1, ih⟩ := h3.covered _ rfl
    have ih' := h4.covered _ e1
    rw [of_cons hA]
    have : CoversTo (t :: toksBlock nodes) (errorsBlock nodes) ((t :: e.toks) :: l) m :=
      CoversTo.trans (.one (.inr (.inl ⟨t, by simp, by simp⟩)) _ _) (ih.mono (by simp +contextual) (fun _ h => h))
    refine ih'.map this ?_ (by simp [errorsOmgs])
    intro a u hu
    simp only [List.mem_cons] at hu
    simp only [toksOmgs, List.mem_cons, List.mem_append]
    rcases hu with (h | h) | h <;> simp [h]

theorem OmgWtfR.covered {s : Stmts} {r : Read (Option WtfOmgWtf)} :
    OmgWtfR s r → ∀ A, s = .of A → r.CoveredPart toksOmgWtf errorsOmgWtf A
  | .none _ => fun A hA => ⟨A, hA, .nil _ _ _⟩
  | .left _ _ => fun A hA => by
    rw [of_cons hA]; exact (of_later_suffix _).trans (List.suffix_cons _ _)
  | @OmgWtfR.some t l r h1 h2 => fun A hA => by
    have ih := h2.covered _ rfl
    rw [of_cons hA]
    refine ih.map (ks := [t]) (es := []) (.one (.inr (.inl ⟨t, by simp, by simp⟩)) _ _) ?_ (by simp [errorsOmgWtf])
    intro a u hu
    simpa [toksOmgWtf] using hu

theorem YaRlyR.covered {s : Stmts} {r : Read (Option YaRly)} :
    YaRlyR s r → ∀ A, s = .of A → r.CoveredPart toksYaRly errorsYaRly A
  | .none _ => fun A hA => ⟨A, hA, .nil _ _ _⟩
  | .left _ _ => fun A hA => by
    rw [of_cons hA]; exact (of_later_suffix _).trans (List.suffix_cons _ _)
  | @YaRlyR.some t l r h1 h2 => fun A hA => by
    have ih := h2.covered _ rfl
    rw [of_cons hA]
    refine ih.map (ks := [t]) (es := []) (.one (.inr (.inl ⟨t, by simp, by simp⟩)) _ _) ?_ (by simp [errorsYaRly])
    intro a u hu
    simpa [toksYaRly] using hu

theorem MebbesR.covered {s : Stmts} {r : Read (List Mebbe)} :
    MebbesR s r → ∀ A, s = .of A → r.CoveredPart toksMebbes errorsMebbes A
  | .nil _ => fun A hA => ⟨A, hA, .nil _ _ _⟩
  | .valueEnd _ => fun A hA => by rw [of_cons hA]; exact List.suffix_cons _ _
  | .value _ _ => fun A hA => by rw [of_cons hA]; exact coveredPart_fail (List.suffix_cons _ _)
  | .left _ _ _ _ => fun A hA => by
    rw [of_cons hA]; exact (of_later_suffix _).trans (List.suffix_cons _ _)
  | .body _ _ _ => fun _ _ => trivial
  | @MebbesR.cons t e l nodes s r h1 h2 h3 h4 => fun A hA => by
    obtain ⟨m, e1, ih⟩ := h3.covered _ rfl
    have ih' := h4.covered _ e1
    rw [of_cons hA]
    have : CoversTo (t :: toksBlock nodes) (errorsBlock nodes) ((t :: e.toks) :: l) m :=
      CoversTo.trans (.one (.inr (.inl ⟨t, by simp, by simp⟩)) _ _) (ih.mono (by simp +contextual) (fun _ h => h))
    refine ih'.map this ?_ (by simp [errorsMebbes])
    intro a u hu
    simp only [List.mem_cons] at hu
    simp only [toksMebbes, List.mem_cons, List.mem_append]
    rcases hu with (h | h) | h <;> simp [h]

theorem NoWaiR.covered {s : Stmts} {r : Read (Option NoWai)} :
    NoWaiR s r → ∀ A, s = .of A → r.CoveredPart toksNoWai errorsNoWai A
  | .none _ => fun A hA => ⟨A, hA, .nil _ _ _⟩
  | .left _ _ => fun A hA => by
    rw [of_cons hA]; exact (of_later_suffix _).trans (List.suffix_cons _ _)
  | @NoWaiR.some t l r h1 h2 => fun A hA => by
    have ih := h2.covered _ rfl
    rw [of_cons hA]
    refine ih.map (ks := [t]) (es := []) (.one (.inr (.inl ⟨t, by simp, by simp⟩)) _ _) ?_ (by simp [errorsNoWai])
    intro a u hu
    simpa [toksNoWai] using hu

theorem StepR.covered {s : Stmts} {r : Read Block} :
    StepR s r → ∀ A, s = .of A → r.CoveredPart toksBlock errorsBlock A
  | @StepR.empty l => fun A hA => by
    cases A with
    | nil =>
      simp only [Stmts.of, Stmts.mk.injEq] at hA
      exact ⟨[], by rw [hA.2], .nil _ _ _⟩
    | cons c A =>
      simp only [Stmts.of, Stmts.mk.injEq] at hA
      exact ⟨l, rfl, by rw [← hA.1, hA.2]; exact .one (.inl rfl) _ _⟩
  | @StepR.ok s node rest l h => fun A hA => by
    have ih := h.covered
    obtain ⟨t, c, hc⟩ := List.exists_cons_of_ne_nil h.first
    obtain ⟨cur, later⟩ := s
    subst hc
    rw [of_cons hA]
    refine ⟨l, rfl, CoversTo.mono ih ?_ (by simp +contextual [errorsBlock, Node.errors])⟩
    simp [toksBlock, toks_leftover]
  | @StepR.error s e rest l h => fun A hA => by
    have ih := h.covered
    obtain ⟨t, c, hc⟩ := List.exists_cons_of_ne_nil h.first
    obtain ⟨cur, later⟩ := s
    subst hc
    rw [of_cons hA]
    refine ⟨l, rfl, CoversTo.mono ih ?_ (by simp +contextual [errorsBlock, Node.errors])⟩
    simp [toksBlock, toks_leftover, Node.toks]
  | .panic _ => fun _ _ => trivial

theorem BlockR.covered {close : List Keyword} {s : Stmts} {r : Read Block} :
    BlockR close s r → ∀ A, s = .of A → r.CoveredPart toksBlock errorsBlock A
  | .last h _ => h.covered
  | .more h _ h' => fun A hA => by
    obtain ⟨m, e1, ih⟩ := h.covered A hA
    have ih' := h'.covered _ e1
    exact ih'.map ih (by simp [toksBlock_append]) (by simp [errorsBlock_append])
  | .panic _ => fun _ _ => trivial

end

/-! ## What is not read does not matter -/

/-- The later statements of the state that is left are `k` fewer. -/
def Res.LaterIs {α : Type} (l : List (List Token)) : Res Stmts α → Prop
  | .ok _ s => s.later = l
  | .err _ s => s.later = l
  | _ => True

/-- The first `k` of the later statements are the same. -/
def Agree (k : Nat) (s t : Stmts) : Prop := s.cur = t.cur ∧ ∀ i, i < k → s.later.getD i [] = t.later.getD i []

theorem advance_eq (s : Stmts) : s.advance = ⟨s.later.getD 0 [], s.later.drop 1⟩ := by
  obtain ⟨c, l⟩ := s
  cases l <;> rfl

/-- A parser reads only some of the later statements. -/
theorem exec_reads {α : Type} (p : Prog α) : ∀ s : Stmts, ∃ k, (exec p s).LaterIs (s.later.drop k) ∧
    ∀ t, Agree k s t → exec p t = (exec p s).withLater (t.later.drop k) := by
  induction p with
  | ret a =>
    refine fun s => ⟨0, rfl, fun t h => ?_⟩
    show Res.ok a t = .ok a ⟨s.cur, t.later⟩
    rw [h.1]
  | err e =>
    refine fun s => ⟨0, rfl, fun t h => ?_⟩
    show Res.err e t = .err e ⟨s.cur, t.later⟩
    rw [h.1]
  | panic p => exact fun s => ⟨0, trivial, fun t h => rfl⟩
  | outOfFuel => exact fun s => ⟨0, trivial, fun t h => rfl⟩
  | next f ih =>
    rintro ⟨_ | ⟨u, c⟩, l⟩
    · obtain ⟨k, h1, h2⟩ := ih none ⟨[], l⟩
      refine ⟨k, h1, ?_⟩
      rintro ⟨_, l'⟩ ⟨rfl, h⟩
      exact h2 ⟨[], l'⟩ ⟨rfl, h⟩
    · obtain ⟨k, h1, h2⟩ := ih (some u) ⟨c, l⟩
      refine ⟨k, h1, ?_⟩
      rintro ⟨_, l'⟩ ⟨rfl, h⟩
      exact h2 ⟨c, l'⟩ ⟨rfl, h⟩
  | peek f ih =>
    rintro ⟨c, l⟩
    obtain ⟨k, h1, h2⟩ := ih c.head? ⟨c, l⟩
    refine ⟨k, h1, ?_⟩
    rintro ⟨_, l'⟩ ⟨rfl, h⟩
    exact h2 ⟨c, l'⟩ ⟨rfl, h⟩
  | nextStatement f ih =>
    rintro ⟨c, l⟩
    obtain ⟨k, h1, h2⟩ := ih c ⟨l.getD 0 [], l.drop 1⟩
    have he : ∀ l', exec (.nextStatement f) ⟨c, l'⟩ = exec (f c) ⟨l'.getD 0 [], l'.drop 1⟩ := by
      intro l'
      show exec (f c) (Stmts.advance ⟨c, l'⟩) = _
      rw [advance_eq]
    refine ⟨k + 1, ?_, ?_⟩
    · rw [he]
      simpa [List.drop_drop, Nat.add_comm] using h1
    · rintro ⟨_, l'⟩ ⟨rfl, h⟩
      simp only at h he ⊢
      rw [he, he, h2 ⟨l'.getD 0 [], l'.drop 1⟩ ⟨h 0 (by omega), fun i hi => ?_⟩]
      · simp [List.drop_drop, Nat.add_comm]
      · have := h (i + 1) (by omega)
        simpa [List.getD_eq_getElem?_getD, Nat.add_comm] using this

end Lol
