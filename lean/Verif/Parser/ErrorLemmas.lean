import Verif.Parser.ErrorSpec
import Verif.Parser.ReadFacts
import Verif.Parser.ConstructLemmas
import Verif.Parser.TreeLemmas

/-! # Lemmas: what the errors in a tree say -/

namespace Lol

theorem ErrorAt.mono {L L' : List (List Token)} (h : ∀ st ∈ L, st ≠ [] → st ∈ L') {e : ASTError} (he : ErrorAt L e) :
    ErrorAt L' e := by
  have hc : ∀ {a : List Token} {t : Token} {b : List Token}, a ++ t :: b ∈ L → a ++ t :: b ∈ L' :=
    fun hm => h _ hm (by simp)
  have hd : ∀ {t : Token} {b : List Token}, t :: b ∈ L → t :: b ∈ L' := fun hm => h _ hm (by simp)
  cases e with
  | unexpectedToken t =>
    obtain ⟨st, h1, h2⟩ := he
    exact ⟨st, h _ h1 (by rintro rfl; cases h2), h2⟩
  | tooManyTokens ts =>
    obtain ⟨h1, a, h2⟩ := he
    exact ⟨h1, a, h _ h2 (by simp [h1])⟩
  | missingToken t => obtain ⟨a, h1⟩ := he; exact ⟨a, hc h1⟩
  | missingBlockClosingToken t => obtain ⟨r, h1, h2⟩ := he; exact ⟨r, hd h1, h2⟩
  | iHasA e =>
    cases e with
    | missingIdentifier t => exact ⟨hd he.1, he.2⟩
    | invalidIdentifier t => obtain ⟨t, r, h1, h2⟩ := he; exact ⟨t, r, hd h1, h2⟩
    | expectedInitialValue t => obtain ⟨t, r, h1, h2⟩ := he; exact ⟨t, r, hd h1, h2⟩
  | variableAssignment e =>
    cases e with
    | missingR t => exact he
    | expectedValue t => obtain ⟨v, h1, h2⟩ := he; exact ⟨v, hc h1, h2⟩
  | expression e =>
    cases e with
    | missingOperands t =>
      obtain ⟨h1, ⟨a, h2⟩ | ⟨h2, a, e, an, h3, h4⟩⟩ := he
      · exact ⟨h1, .inl ⟨a, hc h2⟩⟩
      · exact ⟨h1, .inr ⟨h2, a, e, an, hc h3, h4⟩⟩
  | oRly e =>
    cases e with
    | missingQuestionMark t => obtain ⟨r, h1, h2⟩ := he; exact ⟨r, hd h1, h2⟩
    | missingMebbeExpression t => exact ⟨hd he.1, he.2⟩
  | howIsI e => cases e with | missingNameIdentifier t => exact ⟨hd he.1, he.2⟩
  | imInYr e =>
    cases e with
    | missingYr t => obtain ⟨a, b, c, d, h1, h2⟩ := he; exact ⟨a, b, c, d, hd h1, h2⟩
    | missingStartLabel t => exact ⟨hd he.1, he.2⟩
    | invalidStartLabel t => obtain ⟨a, b, h1, h2⟩ := he; exact ⟨a, b, hd h1, h2⟩
    | missingEndLabel t => exact ⟨hd he.1, he.2⟩
    | invalidEndLabel t => obtain ⟨a, b, h1, h2⟩ := he; exact ⟨a, b, hd h1, h2⟩
    | missingImOuttaYr t => obtain ⟨a, h1, h2⟩ := he; exact ⟨a, hd h1, h2⟩
    | invalidOperation t => exact he
    | missingOperand t => obtain ⟨a, b, c, h1, h2⟩ := he; exact ⟨a, b, c, hd h1, h2⟩
    | invalidConditional t => exact he
    | missingConditionalExpression t => obtain ⟨a, b, c, h1, h2⟩ := he; exact ⟨a, b, c, hd h1, h2⟩
  | iIz e =>
    cases e with
    | missingName t => exact ⟨hd he.1, he.2⟩
    | missingArgument t => obtain ⟨a, b, c, h1, h2⟩ := he; exact ⟨a, b, c, hd h1, h2⟩
    | missingMkay t => obtain ⟨a, b, c, h1, h2⟩ := he; exact ⟨a, b, c, hd h1, h2⟩

section

variable {L : List (List Token)} {rest ts : List Token} {f : Fail} {e : ASTError}

theorem IdentFail.at (h : IdentFail rest ts (.error e)) {a : List Token} (ha : a ++ (ts ++ rest) ∈ L) : ErrorAt L e := by
  cases h with
  | notIdent => exact ⟨_, ha, by simp⟩
  | srsEnd _ hr => subst hr; exact ⟨_, ha⟩
  | srsNotIdent => exact ⟨_, ha, by simp⟩

theorem AccessFail.at (h : AccessFail rest ts (.error e)) {a : List Token} (ha : a ++ (ts ++ rest) ∈ L) :
    ErrorAt L e := by
  cases h with
  | name h => exact h.at ha
  | slotEnd _ _ hr => subst hr; exact ⟨_, by simpa only [List.append_nil, ← List.append_assoc] using ha⟩
  | @slot v z ts _ _ _ h => exact h.at (a := a ++ v.toks ++ [z]) (by simpa using ha)

theorem BinaryOpt.mem_operators (op : BinaryOpt) : op.keyword ∈ operandKeywords ∧ op.keyword ≠ .NOT := by
  cases op <;> exact ⟨by simp [BinaryOpt.keyword, operandKeywords], by simp [BinaryOpt.keyword]⟩

theorem ExprFail.at (h : ExprFail rest ts f) : ∀ {e : ASTError}, f = .error e → ∀ {a : List Token},
    a ++ (ts ++ rest) ∈ L → ErrorAt L e := by
  induction h with
  | start h => rintro e ⟨⟩ a ha; exact ⟨_, ha, by simp⟩
  | maek => rintro e ⟨⟩
  | access _ h => rintro e rfl a ha; exact h.at ha
  | @unaryEnd op h hr =>
    rintro e ⟨⟩ a ha
    subst hr
    cases op
    exact ⟨⟨.NOT, by decide, h⟩, .inl ⟨a, ha⟩⟩
  | @unary op ts f h _ ih =>
    rintro e rfl a ha
    exact ih rfl (a := a ++ [op.token]) (by simpa using ha)
  | @binaryEnd op h hr =>
    rintro e ⟨⟩ a ha
    subst hr
    exact ⟨⟨_, op.mem_operators.1, h⟩, .inl ⟨a, ha⟩⟩
  | @binaryLeft op ts f h _ ih =>
    rintro e rfl a ha
    exact ih rfl (a := a ++ [op.token]) (by simpa using ha)
  | @binaryMiddle op l an h h1 h2 h3 hr =>
    rintro e ⟨⟩ a ha
    subst hr
    refine ⟨⟨_, op.mem_operators.1, h⟩, .inr ⟨fun hn => ?_, a, l, an.toList, by simpa using ha, h1, ?_⟩⟩
    · unfold Token.Is at h hn
      rw [h] at hn
      exact op.mem_operators.2 (by injection hn)
    · cases an with
      | none => exact .inl rfl
      | some u => exact .inr ⟨u, rfl, h3 u rfl⟩
  | @binaryRight op l an ts f h h1 h2 h3 h4 _ ih =>
    rintro e rfl a ha
    exact ih rfl (a := a ++ op.token :: (l.toks ++ an.toList)) (by simpa using ha)
  | @nary op es ts f h h1 h2 _ ih =>
    rintro e rfl a ha
    exact ih rfl (a := a ++ op.token :: toksOperands es) (by simpa using ha)

theorem ArgsFail.at (h : ArgsFail rest ts f) : ∀ {e : ASTError}, f = .error e → ∀ {t : Token} {v : VariableAccess}
    {a : List Token}, t.Is .I_IZ → v.WF → t :: (v.toks ++ (a ++ (ts ++ rest))) ∈ L → ErrorAt L e := by
  induction h with
  | yrEnd h hr =>
    rintro e ⟨⟩ t v a ht hv ha
    subst hr
    exact ⟨t, v, a, by simpa using ha, ht, hv, h⟩
  | @argument yr ts f h h1 =>
    rintro e rfl t v a ht hv ha
    exact h1.at rfl (a := t :: (v.toks ++ (a ++ [yr]))) (by simpa using ha)
  | @later yr an x ts f h h1 h2 h3 _ ih =>
    rintro e rfl t v a ht hv ha
    exact ih rfl (a := a ++ yr :: (x.toks ++ [an])) ht hv (by simpa using ha)

theorem SimpleFail.at (h : SimpleFail rest ts (.error e)) (ha : ts ++ rest ∈ L) : ErrorAt L e := by
  cases h with
  | declarationEnd h hr => subst hr; exact ⟨ha, h⟩
  | declarationName h h1 h2 => exact ⟨_, _, ha, h, h1, h2⟩
  | @declarationSrs t ts _ h _ h1 => exact h1.at (a := [t]) ha
  | declarationItz => exact ⟨_, ha, by simp⟩
  | declarationNoValue h h1 h2 hr => subst hr; exact ⟨_, _, by simpa using ha, h, h1, h2⟩
  | @declarationValue t i itz ts _ h h1 h2 _ h3 =>
    exact h3.at rfl (a := t :: (i.toks ++ [itz])) (by simpa using ha)
  | access _ h => exact h.at (a := []) ha
  | assignmentEnd h h1 hr => subst hr; exact ⟨_, by simpa using ha, h, .inl h1⟩
  | @assignmentValue v r ts _ h h1 h2 => exact h2.at rfl (a := v.toks ++ [r]) (by simpa using ha)
  | setSlotEnd h h1 hr => subst hr; exact ⟨_, by simpa using ha, h, .inr h1⟩
  | @setSlotName v h ts _ h h1 h2 => exact h2.at (a := v.toks ++ [_]) (by simpa using ha)
  | @setSlotNoItz v h i _ _ _ hr =>
    subst hr
    cases hs : i.srs with
    | none => exact ⟨v.toks ++ [h], by simpa [Identifier.toks, hs] using ha⟩
    | some s => exact ⟨v.toks ++ [h, s], by simpa [Identifier.toks, hs] using ha⟩
  | setSlotItz => exact ⟨_, ha, by simp⟩
  | @setSlotNoValue v h itz i _ _ _ _ hr =>
    subst hr; exact ⟨v.toks ++ h :: i.toks, by simpa using ha⟩
  | @setSlotValue v h itz i ts _ _ _ _ _ h1 =>
    exact h1.at rfl (a := v.toks ++ h :: (i.toks ++ [itz])) (by simpa using ha)
  | @visible t es ts _ _ _ _ h => exact h.at rfl (a := t :: es.flatMap Expr.toks) (by simpa using ha)
  | gimmehEnd _ hr => subst hr; exact ⟨[], ha⟩
  | @gimmeh t ts _ _ h => exact h.at (a := [t]) ha
  | foundYrEnd _ hr => subst hr; exact ⟨[], ha⟩
  | @foundYr t ts _ _ h => exact h.at rfl (a := [t]) ha
  | callEnd h hr => subst hr; exact ⟨ha, h⟩
  | @callName t ts _ _ h => exact h.at (a := [t]) ha
  | callArguments h h1 h2 => exact h2.at rfl (a := []) h h1 (by simpa using ha)
  | callNoMkay h h1 h2 hr => subst hr; exact ⟨_, _, _, by simpa using ha, h, h1, .inl rfl⟩
  | callMkay h h1 h2 _ h3 => exact ⟨_, _, _, by simpa using ha, h, h1, .inr ⟨by simp, h3⟩⟩
  | expression _ _ _ h => exact h.at rfl (a := []) ha

theorem LoopOperation.is_keyword {op : LoopOperation} (h : op.token.Is op.keyword) :
    op.token.Is .UPPIN ∨ op.token.Is .NERFIN := by
  cases op with
  | uppin t => exact .inl h
  | nerfin t => exact .inr h

theorem IterFail.at (h : IterFail rest ts (.error e)) {t label : Token} (ht : t.Is .IM_IN_YR) (hl : label.IsIdent)
    (ha : t :: label :: (ts ++ rest) ∈ L) : ErrorAt L e := by
  cases h with
  | yrEnd h hr => subst hr; exact ⟨_, _, _, ha, ht, hl, LoopOperation.is_keyword h, .inl rfl⟩
  | yr h h1 => exact ⟨_, _, _, _, ha, ht, hl, LoopOperation.is_keyword h, h1⟩
  | nameEnd h h1 hr => subst hr; exact ⟨_, _, _, ha, ht, hl, LoopOperation.is_keyword h, .inr ⟨_, rfl, h1⟩⟩
  | @name op yr ts _ h h1 h2 => exact h2.at (a := [t, label, op.token, yr]) ha

theorem CondFail.at (h : CondFail rest ts (.error e)) {t label : Token} {a : List Token} (ht : t.Is .IM_IN_YR)
    (hl : label.IsIdent) (ha : t :: label :: (a ++ (ts ++ rest)) ∈ L) : ErrorAt L e := by
  cases h with
  | exprEnd h hr => subst hr; exact ⟨_, _, _, ha, ht, hl, h⟩
  | @expr c ts _ h h1 => exact h1.at rfl (a := t :: label :: (a ++ [c])) (by simpa using ha)

theorem ParamsFail.at (h : ParamsFail rest ts f) : ∀ {e : ASTError}, f = .error e → ∀ {a : List Token},
    a ++ (ts ++ rest) ∈ L → ErrorAt L e := by
  induction h with
  | nameEnd _ hr => rintro e ⟨⟩ a ha; subst hr; exact ⟨a, ha⟩
  | @name yr ts f _ h => rintro e rfl a ha; exact h.at (a := a ++ [yr]) (by simpa using ha)
  | @later yr an i ts f _ _ _ _ ih =>
    rintro e rfl a ha
    exact ih rfl (a := a ++ yr :: (i.toks ++ [an])) (by simpa using ha)

theorem HeadFail.at (h : HeadFail rest ts (.error e)) (ha : ts ++ rest ∈ L) : ErrorAt L e := by
  cases h with
  | labelEnd h hr => subst hr; exact ⟨ha, h⟩
  | label h h1 => exact ⟨_, _, ha, h, h1⟩
  | iteration h h1 h2 => exact h2.at h h1 ha
  | condition h h1 _ h2 => exact h2.at h h1 (by simpa using ha)
  | nameEnd h hr => subst hr; exact ⟨ha, h⟩
  | @name t ts _ h h1 => exact h1.at (a := [t]) ha
  | @params t i ts _ h _ h1 => exact h1.at rfl (a := t :: i.toks) (by simpa using ha)
  | questionEnd h hr => subst hr; exact ⟨_, ha, h, by simp⟩
  | question h h1 => exact ⟨_, ha, h, by rintro _ _ ⟨⟩; exact h1⟩

end

/-- The statements of `s'` are statements of `s`, except for an empty one. -/
def Stmts.In (s' s : Stmts) : Prop := ∀ st ∈ s'.all, st ≠ [] → st ∈ s.all

theorem Stmts.Le.in {s' s : Stmts} (h : s'.Le s) : s'.In s := by
  intro st hst hne
  by_cases he : s'.all = [[]]
  · rw [he] at hst
    exact absurd (by simpa using hst) hne
  · exact (h s'.all he (List.suffix_refl _)).subset hst

theorem Stmts.In.trans {a b c : Stmts} (h1 : a.In b) (h2 : b.In c) : a.In c :=
  fun st h hne => h2 st (h1 st h hne) hne

/-- What is left of the current statement is the end of a statement of `s`. -/
def Tail (s s' : Stmts) : Prop := s'.cur ≠ [] → ∃ a, a ++ s'.cur ∈ s.all

theorem Stmts.In.tail {s : Stmts} {a r : List Token} {l : List (List Token)} (h : Stmts.In ⟨a ++ r, l⟩ s) :
    Tail s ⟨r, l⟩ :=
  fun hne => ⟨a, h _ List.mem_cons_self (by simpa using fun _ => hne)⟩

theorem Stmts.In.tail_of {s : Stmts} {l : List (List Token)} (h : Stmts.In (.of l) s) : Tail s (.of l) := by
  intro hne
  exact ⟨[], h _ List.mem_cons_self hne⟩

theorem Stmts.In.cur {s : Stmts} {t : Token} {r : List Token} {l : List (List Token)} (h : Stmts.In ⟨t :: r, l⟩ s) :
    t :: r ∈ s.all := h _ List.mem_cons_self (by simp)

theorem Stmts.in_refl (s : Stmts) : s.In s := fun _ h _ => h

theorem Stmts.in_of (l : List (List Token)) (ts : List Token) : (Stmts.of l).In ⟨ts, l⟩ := (Stmts.le_of l ts).in

/-- What is shown of an error and of what is left after it. -/
def Read.Says {α : Type} (s : Stmts) : Read α → Prop
  | .ok _ _ => True
  | .error e s' => ErrorAt s.all e ∧ Tail s s'
  | .panic _ => True

theorem Read.Says.mono {α : Type} {s s' : Stmts} {r : Read α} (h : r.Says s') (hs : s'.In s) : r.Says s := by
  cases r with
  | ok => trivial
  | error e s1 =>
    refine ⟨h.1.mono hs, fun hne => ?_⟩
    obtain ⟨a, ha⟩ := h.2 hne
    exact ⟨a, hs _ ha (by simp [hne])⟩
  | panic => trivial

theorem Read.Says.map {α β : Type} {s : Stmts} {r : Read α} {g : α → β} (h : r.Says s) : (r.map g).Says s := by
  cases r <;> exact h

theorem says_read {α β : Type} {f : Fail} {s s' : Stmts} (h : (f.read s' : Read α).Says s) :
    (f.read s' : Read β).Says s := by
  cases f <;> exact h

theorem exprFail_says {α : Type} {rest ts : List Token} {f : Fail} (h : ExprFail rest ts f) {a : List Token}
    {l : List (List Token)} : (f.read ⟨rest, l⟩ : Read α).Says ⟨a ++ (ts ++ rest), l⟩ := by
  cases f with
  | error e =>
    refine ⟨h.at rfl (a := a) List.mem_cons_self, ?_⟩
    exact Stmts.In.tail (a := a ++ ts) (by rw [List.append_assoc]; exact Stmts.in_refl _)
  | panic p => trivial

theorem left_says {α : Type} {rest a : List Token} {l : List (List Token)} (h : rest ≠ []) :
    (.error (.tooManyTokens rest) (.of l) : Read α).Says ⟨a ++ rest, l⟩ :=
  ⟨⟨h, a, List.mem_cons_self⟩, (Stmts.in_of _ _).tail_of⟩

theorem BlockR.says {close : List Keyword} {s : Stmts} {r : Read Block} (h : BlockR close s r) : r.Says s := by
  cases r with
  | ok => trivial
  | error e s' => exact absurd rfl (h.noError e s')
  | panic => trivial

theorem OmgsR.says {s : Stmts} {r : Read (List WtfOmg)} : OmgsR s r → r.Says s
  | .nil _ => trivial
  | .valueEnd _ => ⟨⟨[], List.mem_cons_self⟩, fun h => absurd rfl h⟩
  | .value _ h => exprFail_says h (a := [_])
  | .left (t := t) (e := e) _ _ _ h => left_says (a := t :: e.toks) h
  | .body _ _ _ => trivial
  | .cons _ _ hb h => (h.says.mono ((Stmts.Le.in (show Stmts.Le _ _ from hb.le)).trans (Stmts.in_of _ _))).map

theorem MebbesR.says {s : Stmts} {r : Read (List Mebbe)} : MebbesR s r → r.Says s
  | .nil _ => trivial
  | .valueEnd h => ⟨⟨List.mem_cons_self, h⟩, fun h => absurd rfl h⟩
  | .value _ h => exprFail_says h (a := [_])
  | .left (t := t) (e := e) _ _ _ h => left_says (a := t :: e.toks) h
  | .body _ _ _ => trivial
  | .cons _ _ hb h => (h.says.mono ((Stmts.Le.in (show Stmts.Le _ _ from hb.le)).trans (Stmts.in_of _ _))).map

theorem OmgWtfR.says {s : Stmts} {r : Read (Option WtfOmgWtf)} (h : OmgWtfR s r) : r.Says s := by
  cases h with
  | none => trivial
  | left _ h => exact left_says (a := [_]) h
  | some _ h => exact (h.says.mono (Stmts.in_of _ _)).map

theorem YaRlyR.says {s : Stmts} {r : Read (Option YaRly)} (h : YaRlyR s r) : r.Says s := by
  cases h with
  | none => trivial
  | left _ h => exact left_says (a := [_]) h
  | some _ h => exact (h.says.mono (Stmts.in_of _ _)).map

theorem NoWaiR.says {s : Stmts} {r : Read (Option NoWai)} (h : NoWaiR s r) : r.Says s := by
  cases h with
  | none => trivial
  | left _ h => exact left_says (a := [_]) h
  | some _ h => exact (h.says.mono (Stmts.in_of _ _)).map

/-- The first token of a heading. -/
theorem HeadR.first {rest ts : List Token} {h : Heading} (hh : HeadR rest ts h) : ∃ t r, ts = t :: r ∧
    match h with
    | .loop u _ _ _ => u = t ∧ t.Is .IM_IN_YR
    | .function u _ _ => u = t ∧ t.Is .HOW_IZ_I
    | .switch u => u = t ∧ t.Is .WTF
    | .conditional u => u = t ∧ t.Is .O_RLY := by
  cases hh with
  | loop h => exact ⟨_, _, rfl, rfl, h⟩
  | function h => exact ⟨_, _, rfl, rfl, h⟩
  | switch h => exact ⟨_, _, rfl, rfl, h⟩
  | conditional h => exact ⟨_, _, rfl, rfl, h⟩

theorem NodeR.says {s : Stmts} {r : Read Node} (h : NodeR s r) : r.Says s := by
  cases h with
  | simple => trivial
  | @simpleFail ts rest f later h =>
    cases f with
    | error e => exact ⟨h.at List.mem_cons_self, Stmts.In.tail (Stmts.in_refl _)⟩
    | panic p => trivial
  | hai => trivial
  | @headFail ts rest f later h =>
    cases f with
    | error e => exact ⟨h.at List.mem_cons_self, Stmts.In.tail (Stmts.in_refl _)⟩
    | panic p => trivial
  | headLeft _ h => exact left_says h
  | loop => trivial
  | loopPanic => trivial
  | loopEnd h hb =>
    obtain ⟨t, r, rfl, rfl, ht⟩ := h.first
    exact ⟨⟨r, List.mem_cons_self, ht⟩, fun h => absurd rfl h⟩
  | @loopLabelEnd ts t label op cond later body c l h hb =>
    have hin := (Stmts.Le.in (show Stmts.Le _ _ from hb.le)).trans (Stmts.in_of _ ts)
    refine ⟨⟨hin.cur, ?_⟩, fun h => absurd rfl h⟩
    rcases hb.stop _ _ rfl with h | ⟨_, _, h, k, hk, ht⟩
    · cases h
    · cases h; cases List.mem_singleton.1 hk; exact ht
  | @loopLabel ts t label op cond later body c u rest l h hb hu =>
    have hin := (Stmts.Le.in (show Stmts.Le _ _ from hb.le)).trans (Stmts.in_of _ ts)
    refine ⟨⟨_, _, hin.cur, ?_, hu⟩, Stmts.In.tail (a := [c, u]) hin⟩
    rcases hb.stop _ _ rfl with h | ⟨_, _, h, k, hk, ht⟩
    · cases h
    · cases h; cases List.mem_singleton.1 hk; exact ht
  | function => trivial
  | functionPanic => trivial
  | functionEnd h hb =>
    obtain ⟨t, r, rfl, rfl, ht⟩ := h.first
    exact ⟨⟨r, List.mem_cons_self, .inl ht⟩, fun h => absurd rfl h⟩
  | @functionLeft ts t i params later body c rest l h hb hr =>
    have hin := (Stmts.Le.in (show Stmts.Le _ _ from hb.le)).trans (Stmts.in_of _ ts)
    exact (left_says (a := [c]) hr).mono hin
  | switch => trivial
  | switchCases h h1 => exact says_read (h1.says.mono (Stmts.in_of _ _))
  | switchDefault h h1 h2 =>
    exact says_read (h2.says.mono ((Stmts.Le.in (show Stmts.Le _ _ from h1.le)).trans (Stmts.in_of _ _)))
  | switchEnd h h1 h2 =>
    obtain ⟨t, r, rfl, rfl, ht⟩ := h.first
    exact ⟨⟨r, List.mem_cons_self, .inr (.inl ht)⟩, fun h => absurd rfl h⟩
  | @switchOther ts t later omgs s1 dflt c rest l h h1 h2 hc =>
    have hin := ((Stmts.Le.in (show Stmts.Le _ _ from h2.le)).trans
      (Stmts.Le.in (show Stmts.Le _ _ from h1.le))).trans (Stmts.in_of _ ts)
    exact ⟨⟨_, hin.cur, by simp⟩, Stmts.In.tail (a := [c]) hin⟩
  | @switchLeft ts t later omgs s1 dflt c rest l h h1 h2 hc hr =>
    have hin := ((Stmts.Le.in (show Stmts.Le _ _ from h2.le)).trans
      (Stmts.Le.in (show Stmts.Le _ _ from h1.le))).trans (Stmts.in_of _ ts)
    exact (left_says (a := [c]) hr).mono hin
  | conditional => trivial
  | conditionalYes h h1 => exact says_read (h1.says.mono (Stmts.in_of _ _))
  | conditionalMaybe h h1 h2 =>
    exact says_read (h2.says.mono ((Stmts.Le.in (show Stmts.Le _ _ from h1.le)).trans (Stmts.in_of _ _)))
  | conditionalNo h h1 h2 h3 =>
    exact says_read (h3.says.mono (((Stmts.Le.in (show Stmts.Le _ _ from h2.le)).trans
      (Stmts.Le.in (show Stmts.Le _ _ from h1.le))).trans (Stmts.in_of _ _)))
  | conditionalEnd h =>
    obtain ⟨t, r, rfl, rfl, ht⟩ := h.first
    exact ⟨⟨r, List.mem_cons_self, .inr (.inr ht)⟩, fun h => absurd rfl h⟩
  | @conditionalOther ts t later yaRly s1 mebbes s2 noWai c rest l h h1 h2 h3 hc =>
    have hin := (((Stmts.Le.in (show Stmts.Le _ _ from h3.le)).trans (Stmts.Le.in (show Stmts.Le _ _ from h2.le))).trans
      (Stmts.Le.in (show Stmts.Le _ _ from h1.le))).trans (Stmts.in_of _ ts)
    exact ⟨⟨_, hin.cur, by simp⟩, Stmts.In.tail (a := [c]) hin⟩

theorem NodeR.tail {s : Stmts} {node : Node} {s' : Stmts} (h : NodeR s (.ok node s')) : Tail s s' := by
  generalize hr : Read.ok node s' = r at h
  cases h with
  | simple => cases hr; exact Stmts.In.tail (Stmts.in_refl _)
  | simpleFail => exact absurd hr.symm Fail.read_ne_ok
  | hai => cases hr; exact (Stmts.in_of _ _).tail_of
  | headFail => exact absurd hr.symm Fail.read_ne_ok
  | @loop ts t label op cond later body c endLabel rest l h hb hu =>
    cases hr
    exact Stmts.In.tail (a := [c, endLabel]) ((Stmts.Le.in (show Stmts.Le _ _ from hb.le)).trans (Stmts.in_of _ _))
  | function h hb =>
    cases hr
    exact ((Stmts.in_of _ _).trans ((Stmts.Le.in (show Stmts.Le _ _ from hb.le)).trans (Stmts.in_of _ _))).tail_of
  | switch h h1 h2 =>
    cases hr
    exact ((Stmts.in_of _ _).trans (((Stmts.Le.in (show Stmts.Le _ _ from h2.le)).trans
      (Stmts.Le.in (show Stmts.Le _ _ from h1.le))).trans (Stmts.in_of _ _))).tail_of
  | @conditional ts t later yaRly s1 mebbes s2 noWai c rest l h h1 h2 h3 hc =>
    cases hr
    exact Stmts.In.tail (a := [c]) ((((Stmts.Le.in (show Stmts.Le _ _ from h3.le)).trans
      (Stmts.Le.in (show Stmts.Le _ _ from h2.le))).trans
      (Stmts.Le.in (show Stmts.Le _ _ from h1.le))).trans (Stmts.in_of _ ts))
  | switchCases => exact absurd hr.symm Fail.read_ne_ok
  | switchDefault => exact absurd hr.symm Fail.read_ne_ok
  | conditionalYes => exact absurd hr.symm Fail.read_ne_ok
  | conditionalMaybe => exact absurd hr.symm Fail.read_ne_ok
  | conditionalNo => exact absurd hr.symm Fail.read_ne_ok
  | _ => cases hr

theorem StepR.errors {s : Stmts} {nodes : Block} {s' : Stmts} (h : StepR s (.ok nodes s')) {e : ASTError}
    (he : .astError e ∈ nodes) : ErrorAt s.all e := by
  have left : ∀ {rest l}, Tail s ⟨rest, l⟩ → Node.astError e ∈ leftoverNodes rest → ErrorAt s.all e := by
    intro rest l ht hm
    unfold leftoverNodes at hm
    split at hm
    · cases hm
    · rename_i hne
      cases List.mem_singleton.1 hm
      exact ⟨hne, ht hne⟩
  generalize hr : Read.ok nodes s' = r at h
  cases h with
  | empty => cases hr; cases he
  | ok h =>
    cases hr
    rcases List.mem_cons.1 he with rfl | he
    · exact h.noErrorNode.elim
    · exact left h.tail he
  | error h =>
    cases hr
    rcases List.mem_cons.1 he with he | he
    · cases he; exact h.says.1
    · exact left h.says.2 he
  | panic => cases hr

theorem BlockR.errors {close : List Keyword} {s : Stmts} {r : Read Block} : BlockR close s r → ∀ nodes s',
    r = .ok nodes s' → ∀ e, .astError e ∈ nodes → ErrorAt s.all e
  | .last h _ => by rintro _ _ ⟨⟩ e he; exact h.errors he
  | .more (r := r) (nodes := first) h1 _ h2 => by
    have ih := h2.errors
    have hin := Stmts.Le.in (show Stmts.Le _ _ from h1.le)
    intro nodes s' hr e he
    cases r with
    | ok a s1 =>
      cases hr
      rcases List.mem_append.1 he with he | he
      · exact h1.errors he
      · exact (ih _ _ rfl e he).mono hin
    | error => cases hr
    | panic => cases hr
  | .panic _ => by intro _ _ hr; cases hr

theorem parseStmts_errors {s : Stmts} {nodes b : Block} (h : parseStmts s = .ok nodes) (hb : BlockIn b nodes)
    {e : ASTError} (he : .astError e ∈ b) : ErrorAt s.all e := by
  obtain ⟨s', h⟩ := parseStmts_ok_iff.1 h
  rcases h.blockIn hb with rfl | ⟨close', l, s2, h7, h8, h9⟩
  · exact h.errors _ _ rfl e he
  · exact (h8.errors _ _ rfl e he).mono h7.in

theorem ErrorAt.toks {L : List (List Token)} {e : ASTError} (h : ErrorAt L e) :
    ∃ st ∈ L, e.toks ≠ [] ∧ ∀ t ∈ e.toks, t ∈ st := by
  have one : ∀ {t : Token} {st : List Token}, st ∈ L → t ∈ st → ∃ st ∈ L, [t] ≠ [] ∧ ∀ u ∈ [t], u ∈ st := by
    intro t st h1 h2
    exact ⟨st, h1, by simp, by simpa using h2⟩
  unfold ErrorAt at h
  split at h
  · obtain ⟨st, h1, h2⟩ := h; exact one h1 h2
  · obtain ⟨h1, a, h2⟩ := h; exact ⟨_, h2, h1, fun t ht => List.mem_append_right _ ht⟩
  · obtain ⟨a, h⟩ := h; exact one h (by simp)
  · obtain ⟨r, h, -⟩ := h; exact one h (by simp)
  · exact one h.1 (by simp)
  · obtain ⟨t, r, h, -⟩ := h; exact one h (by simp)
  · obtain ⟨t, i, h, -⟩ := h; exact one h (by simp)
  · exact h.elim
  · obtain ⟨v, h, -⟩ := h; exact one h (by simp)
  · obtain ⟨-, ⟨a, h⟩ | ⟨-, a, e, an, h, -⟩⟩ := h
    · exact one h (by simp)
    · exact one h (by simp)
  · obtain ⟨r, h, -⟩ := h; exact one h (by simp)
  · exact one h.1 (by simp)
  · exact one h.1 (by simp)
  · obtain ⟨t, l, op, r, h, -⟩ := h; exact one h (by simp)
  · exact one h.1 (by simp)
  · obtain ⟨t, r, h, -⟩ := h; exact one h (by simp)
  · exact one h.1 (by simp)
  · obtain ⟨t, r, h, -⟩ := h; exact one h (by simp)
  · obtain ⟨r, h, -⟩ := h; exact one h (by simp)
  · exact h.elim
  · obtain ⟨t, l, r, h, -⟩ := h; exact one h (by simp)
  · exact h.elim
  · obtain ⟨t, l, a, h, -⟩ := h; exact one h (by simp)
  · exact one h.1 (by simp)
  · obtain ⟨t, v, a, h, -⟩ := h; exact one h (by simp)
  · obtain ⟨t, v, r, h, -, -, rfl | ⟨h1, -⟩⟩ := h
    · exact one h (by simp)
    · exact one h (by simp [h1])

theorem VariableAccess.toks_last (v : VariableAccess) : ∃ a, v.toks = a ++ [v.lastToken] := by
  obtain ⟨i, l⟩ := v
  rcases List.eq_nil_or_concat l with rfl | ⟨l, s, rfl⟩
  · simp [VariableAccess.lastToken, VariableAccess.toks, Identifier.toks]
  · simp only [VariableAccess.lastToken, VariableAccess.toks]
    refine ⟨i.toks ++ (l.flatMap (·.toks) ++ s.slotAccessToken :: s.identifier.srs.toList), ?_⟩
    simp [VariableAccessSlot.toks, Identifier.toks]

end Lol
