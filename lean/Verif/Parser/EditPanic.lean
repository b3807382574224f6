import Verif.Parser.EditLemmas

/-! # Lemmas: a panic stays when statements are inserted -/

namespace Lol

section

variable {st : List Token} {ps post : List (List Token)} {Run : Block → Prop} (hp : PlainTokens st)
  (hps : ReadBefore ps post Run)

theorem read_panic {α : Type} {f : Fail} {s : Stmts} {p : PanicSite} (h : (f.read s : Read α) = .panic p) :
    f = .panic p := by
  cases f with
  | error e => cases h
  | panic q => cases h; rfl

theorem map_panic {α β : Type} {f : α → β} {r : Read α} {p : PanicSite} (h : r.map f = .panic p) : r = .panic p := by
  cases r with
  | ok _ _ => cases h
  | error _ _ => cases h
  | panic q => cases h; rfl

/-- The panic `p'` is `p`, or that of one of the statements `ps`, which are plain. -/
def OrBy (ps : List (List Token)) (p p' : PanicSite) : Prop :=
  p' = p ∨ (∀ q ∈ ps, PlainTokens q) ∧ ∃ q ∈ ps, ∀ l, StepR ⟨q, l⟩ (.panic p')

include hp in
omit hps in
theorem OrBy.culprit {p p' : PanicSite} (h : ∃ q, Culprit st st ps q ∧ ∀ l, StepR ⟨q, l⟩ (.panic p')) :
    OrBy ps p p' := by
  obtain ⟨q, ⟨h1, h2⟩ | ⟨rfl, x, h1⟩, h3⟩ := h
  · exact .inr ⟨h2, q, h1, h3⟩
  · cases (h1 []).det (h3 [])

include hp hps

theorem Passed.panics {close : List Keyword} (hc : ∀ k ∈ close, k ∈ partKeywords) {x : Block} {s1 s' : Stmts}
    {r' : Read Block} {p : PanicSite} (h : Passed st st ps post (.ok x s1) r') (h' : StepR s' r')
    (hr : Rest close s1 (.panic p)) : ∃ p', BlockR close s' (.panic p') ∧ OrBy ps p p' := by
  generalize hx : Read.ok x s1 = r0 at h
  obtain ⟨a, hf⟩ := h
  cases hx
  rcases hps _ hc _ hr with ⟨ys, h1, h2⟩ | ⟨p', h1, h2, h3⟩
  · exact ⟨p, .of_rest (r := .panic p) h' h2, .inl rfl⟩
  · exact ⟨p', .of_rest (r := .panic p') h' h1, .inr ⟨h2, h3⟩⟩

mutual

theorem NodeR.panics : {s : Stmts} → {r : Read Node} → NodeR s r → ∀ p, r = .panic p →
    ∀ pre, s.later = pre ++ st :: post → ∃ p', NodeR ⟨s.cur, pre ++ st :: (ps ++ post)⟩ (.panic p') ∧ OrBy ps p p'
  | _, _, .simple _, _, hr, _, _ => nomatch hr
  | _, _, .hai _, _, hr, _, _ => nomatch hr
  | _, _, .headLeft _ _, _, hr, _, _ => nomatch hr
  | _, _, .loop _ _ _, _, hr, _, _ => nomatch hr
  | _, _, .loopEnd _ _, _, hr, _, _ => nomatch hr
  | _, _, .loopLabelEnd _ _, _, hr, _, _ => nomatch hr
  | _, _, .loopLabel _ _ _, _, hr, _, _ => nomatch hr
  | _, _, .function _ _, _, hr, _, _ => nomatch hr
  | _, _, .functionEnd _ _, _, hr, _, _ => nomatch hr
  | _, _, .functionLeft _ _ _, _, hr, _, _ => nomatch hr
  | _, _, .switch _ _ _ _, _, hr, _, _ => nomatch hr
  | _, _, .switchEnd _ _ _, _, hr, _, _ => nomatch hr
  | _, _, .switchOther _ _ _ _, _, hr, _, _ => nomatch hr
  | _, _, .switchLeft _ _ _ _ _, _, hr, _, _ => nomatch hr
  | _, _, .conditional _ _ _ _ _, _, hr, _, _ => nomatch hr
  | _, _, .conditionalEnd _ _ _ _, _, hr, _, _ => nomatch hr
  | _, _, .conditionalOther _ _ _ _ _, _, hr, _, _ => nomatch hr
  | _, _, .simpleFail h, p, hr, pre, hl => by
    cases read_panic hr
    exact ⟨p, .simpleFail h, .inl rfl⟩
  | _, _, .headFail h, p, hr, pre, hl => by
    cases read_panic hr
    exact ⟨p, .headFail h, .inl rfl⟩
  | _, _, .loopPanic h hb, p, hr, pre, hl => by
    have ih := BlockR.panics hb
    cases hr
    cases hl
    obtain ⟨p', h, o⟩ := ih _ rfl close_loop _ (near_of pre)
    exact ⟨p', .loopPanic ‹_› h, o⟩
  | _, _, .functionPanic h hb, p, hr, pre, hl => by
    have ih := BlockR.panics hb
    cases hr
    cases hl
    obtain ⟨p', h, o⟩ := ih _ rfl close_function _ (near_of pre)
    exact ⟨p', .functionPanic ‹_› h, o⟩
  | _, _, .switchCases (s := s) h hb, p, hr, pre, hl => by
    have ih := OmgsR.panics hb
    cases read_panic hr
    cases hl
    obtain ⟨p', h1, o⟩ := ih _ rfl _ (near_of pre)
    exact ⟨p', .switchCases (f := .panic p') (s := s) h h1, o⟩
  | _, _, .switchDefault (s := s) h ho hb, p, hr, pre, hl => by
    have ih := OmgWtfR.panics hb
    cases read_panic hr
    cases hl
    obtain ⟨r', p0, e0⟩ := ho.editBy hp hp hps (by simp) _ (near_of pre)
    rcases e0.ok_inv with ⟨s', rfl, n0⟩ | ⟨a', rfl, -⟩ | ⟨p', rfl, o⟩
    · obtain ⟨p', h1, o⟩ := ih _ rfl _ n0
      exact ⟨p', .switchDefault (f := .panic p') (s := s) h p0 h1, o⟩
    · exact ⟨_, .switchDefault (f := .panic _) (s := s) h p0 hb, .inl rfl⟩
    · exact ⟨p', .switchCases (f := .panic p') (s := s) h p0, .culprit hp o⟩
  | _, _, .conditionalYes (s := s) h hb, p, hr, pre, hl => by
    have ih := YaRlyR.panics hb
    cases read_panic hr
    cases hl
    obtain ⟨p', h1, o⟩ := ih _ rfl _ (near_of pre)
    exact ⟨p', .conditionalYes (f := .panic p') (s := s) h h1, o⟩
  | _, _, .conditionalMaybe (s := s) h hy hb, p, hr, pre, hl => by
    have ih := MebbesR.panics hb
    cases read_panic hr
    cases hl
    obtain ⟨r', p0, e0⟩ := hy.editBy hp hp hps (by simp) _ (near_of pre)
    rcases e0.ok_inv with ⟨s', rfl, n0⟩ | ⟨a', rfl, -⟩ | ⟨p', rfl, o⟩
    · obtain ⟨p', h1, o⟩ := ih _ rfl _ n0
      exact ⟨p', .conditionalMaybe (f := .panic p') (s := s) h p0 h1, o⟩
    · exact ⟨_, .conditionalMaybe (f := .panic _) (s := s) h p0 hb, .inl rfl⟩
    · exact ⟨p', .conditionalYes (f := .panic p') (s := s) h p0, .culprit hp o⟩
  | _, _, .conditionalNo (s := s) h hy hm hb, p, hr, pre, hl => by
    have ih := NoWaiR.panics hb
    cases read_panic hr
    cases hl
    obtain ⟨r', p0, e0⟩ := hy.editBy hp hp hps (by simp) _ (near_of pre)
    rcases e0.ok_inv with ⟨s', rfl, n0⟩ | ⟨a', rfl, -⟩ | ⟨p', rfl, o⟩
    · obtain ⟨r', p1, e1⟩ := hm.editBy hp hp hps (by simp) _ n0
      rcases e1.ok_inv with ⟨s', rfl, n1⟩ | ⟨a', rfl, -⟩ | ⟨p', rfl, o⟩
      · obtain ⟨p', h1, o⟩ := ih _ rfl _ n1
        exact ⟨p', .conditionalNo (f := .panic p') (s := s) h p0 p1 h1, o⟩
      · exact ⟨_, .conditionalNo (f := .panic _) (s := s) h p0 p1 hb, .inl rfl⟩
      · exact ⟨p', .conditionalMaybe (f := .panic p') (s := s) h p0 p1, .culprit hp o⟩
    · exact ⟨_, .conditionalNo (f := .panic _) (s := s) h p0 hm hb, .inl rfl⟩
    · exact ⟨p', .conditionalYes (f := .panic p') (s := s) h p0, .culprit hp o⟩

theorem OmgsR.panics : {s : Stmts} → {r : Read (List WtfOmg)} → OmgsR s r → ∀ p, r = .panic p →
    ∀ s', Near st st ps post s s' → ∃ p', OmgsR s' (.panic p') ∧ OrBy ps p p'
  | _, _, .nil _, _, hr, _, _ => nomatch hr
  | _, _, .valueEnd _, _, hr, _, _ => nomatch hr
  | _, _, .left _ _ _ _, _, hr, _, _ => nomatch hr
  | _, _, .value h h1, p, hr, _, hn => by
    cases read_panic hr
    obtain ⟨pre', rfl, rfl⟩ := hn.key hp (by decide) h
    exact ⟨p, .value h h1, .inl rfl⟩
  | _, _, .body h h1 hb, p, hr, _, hn => by
    have ih := BlockR.panics hb
    cases hr
    obtain ⟨pre', rfl, rfl⟩ := hn.key hp (by decide) h
    obtain ⟨p', h2, o⟩ := ih _ rfl close_switch _ (near_of pre')
    exact ⟨p', .body h h1 h2, o⟩
  | _, _, .cons h h1 hb ho, p, hr, _, hn => by
    have ih := OmgsR.panics ho
    cases map_panic hr
    obtain ⟨pre', rfl, rfl⟩ := hn.key hp (by decide) h
    obtain ⟨r', p0, e0⟩ := hb.editBy hp hp hps (by simp) close_switch _ (near_of pre')
    rcases e0.ok_inv with ⟨s', rfl, n0⟩ | ⟨a', rfl, -⟩ | ⟨p', rfl, o⟩
    · obtain ⟨p', h2, o⟩ := ih _ rfl _ n0
      exact ⟨p', .cons (r := .panic p') h h1 p0 h2, o⟩
    · exact ⟨_, .cons (r := .panic _) h h1 p0 ho, .inl rfl⟩
    · exact ⟨p', .body h h1 p0, .culprit hp o⟩

theorem MebbesR.panics : {s : Stmts} → {r : Read (List Mebbe)} → MebbesR s r → ∀ p, r = .panic p →
    ∀ s', Near st st ps post s s' → ∃ p', MebbesR s' (.panic p') ∧ OrBy ps p p'
  | _, _, .nil _, _, hr, _, _ => nomatch hr
  | _, _, .valueEnd _, _, hr, _, _ => nomatch hr
  | _, _, .left _ _ _ _, _, hr, _, _ => nomatch hr
  | _, _, .value h h1, p, hr, _, hn => by
    cases read_panic hr
    obtain ⟨pre', rfl, rfl⟩ := hn.key hp (by decide) h
    exact ⟨p, .value h h1, .inl rfl⟩
  | _, _, .body h h1 hb, p, hr, _, hn => by
    have ih := BlockR.panics hb
    cases hr
    obtain ⟨pre', rfl, rfl⟩ := hn.key hp (by decide) h
    obtain ⟨p', h2, o⟩ := ih _ rfl close_if _ (near_of pre')
    exact ⟨p', .body h h1 h2, o⟩
  | _, _, .cons h h1 hb ho, p, hr, _, hn => by
    have ih := MebbesR.panics ho
    cases map_panic hr
    obtain ⟨pre', rfl, rfl⟩ := hn.key hp (by decide) h
    obtain ⟨r', p0, e0⟩ := hb.editBy hp hp hps (by simp) close_if _ (near_of pre')
    rcases e0.ok_inv with ⟨s', rfl, n0⟩ | ⟨a', rfl, -⟩ | ⟨p', rfl, o⟩
    · obtain ⟨p', h2, o⟩ := ih _ rfl _ n0
      exact ⟨p', .cons (r := .panic p') h h1 p0 h2, o⟩
    · exact ⟨_, .cons (r := .panic _) h h1 p0 ho, .inl rfl⟩
    · exact ⟨p', .body h h1 p0, .culprit hp o⟩

theorem OmgWtfR.panics : {s : Stmts} → {r : Read (Option WtfOmgWtf)} → OmgWtfR s r → ∀ p, r = .panic p →
    ∀ s', Near st st ps post s s' → ∃ p', OmgWtfR s' (.panic p') ∧ OrBy ps p p'
  | _, _, .none _, _, hr, _, _ => nomatch hr
  | _, _, .left _ _, _, hr, _, _ => nomatch hr
  | _, _, .some h hb, p, hr, _, hn => by
    have ih := BlockR.panics hb
    cases map_panic hr
    obtain ⟨pre', rfl, rfl⟩ := hn.key hp (by decide) h
    obtain ⟨p', h2, o⟩ := ih _ rfl close_switch _ (near_of pre')
    exact ⟨p', .some (r := .panic p') h h2, o⟩

theorem YaRlyR.panics : {s : Stmts} → {r : Read (Option YaRly)} → YaRlyR s r → ∀ p, r = .panic p →
    ∀ s', Near st st ps post s s' → ∃ p', YaRlyR s' (.panic p') ∧ OrBy ps p p'
  | _, _, .none _, _, hr, _, _ => nomatch hr
  | _, _, .left _ _, _, hr, _, _ => nomatch hr
  | _, _, .some h hb, p, hr, _, hn => by
    have ih := BlockR.panics hb
    cases map_panic hr
    obtain ⟨pre', rfl, rfl⟩ := hn.key hp (by decide) h
    obtain ⟨p', h2, o⟩ := ih _ rfl close_if _ (near_of pre')
    exact ⟨p', .some (r := .panic p') h h2, o⟩

theorem NoWaiR.panics : {s : Stmts} → {r : Read (Option NoWai)} → NoWaiR s r → ∀ p, r = .panic p →
    ∀ s', Near st st ps post s s' → ∃ p', NoWaiR s' (.panic p') ∧ OrBy ps p p'
  | _, _, .none _, _, hr, _, _ => nomatch hr
  | _, _, .left _ _, _, hr, _, _ => nomatch hr
  | _, _, .some h hb, p, hr, _, hn => by
    have ih := BlockR.panics hb
    cases map_panic hr
    obtain ⟨pre', rfl, rfl⟩ := hn.key hp (by decide) h
    obtain ⟨p', h2, o⟩ := ih _ rfl close_if _ (near_of pre')
    exact ⟨p', .some (r := .panic p') h h2, o⟩

theorem StepR.panics : {s : Stmts} → {r : Read Block} → StepR s r → ∀ p, r = .panic p →
    ∀ s', Near st st ps post s s' → ∃ p', StepR s' (.panic p') ∧ OrBy ps p p'
  | _, _, .empty, _, hr, _, _ => nomatch hr
  | _, _, .ok _, _, hr, _, _ => nomatch hr
  | _, _, .error _, _, hr, _, _ => nomatch hr
  | _, _, .panic h, p, hr, _, hn => by
    have ih := NodeR.panics h
    cases hr
    rcases hn.inv with ⟨pre', h1, rfl⟩ | ⟨rfl, rfl⟩
    · obtain ⟨p', h2, o⟩ := ih _ rfl _ h1
      exact ⟨p', .panic h2, o⟩
    · rcases hp.step with ⟨x, hx⟩ | ⟨p, hx⟩
      · cases (StepR.panic h).det (hx post)
      · cases (StepR.panic h).det (hx post)
        exact ⟨_, hx _, .inl rfl⟩

theorem BlockR.panics : {close : List Keyword} → {s : Stmts} → {r : Read Block} → BlockR close s r → ∀ p, r = .panic p →
    (∀ k ∈ close, k ∈ partKeywords) → ∀ s', Near st st ps post s s' → ∃ p', BlockR close s' (.panic p') ∧ OrBy ps p p'
  | _, _, _, .last _ _, _, hr, _, _, _ => nomatch hr
  | _, _, _, .more h hs hb, p, hr, hc, _, hn => by
    have ih := BlockR.panics hb
    cases map_panic hr
    obtain ⟨r', p0, e0 | e0⟩ := h.editBy hp hp hps (by simp) _ hn
    case inr => exact e0.panics hp hps hc p0 (.more hs hb)
    rcases e0.ok_inv with ⟨s', rfl, n0⟩ | ⟨a', rfl, -⟩ | ⟨p', rfl, o⟩
    · obtain ⟨p', h2, o⟩ := ih _ rfl hc _ n0
      exact ⟨p', .more (r := .panic p') p0 (fun h => hs ((n0.stop hp hp hc).2 h)) h2, o⟩
    · exact ⟨_, .more (r := .panic _) p0 hs hb, .inl rfl⟩
    · exact ⟨p', .panic p0, .culprit hp o⟩
  | _, _, _, .panic h, p, hr, hc, _, hn => by
    have ih := StepR.panics h
    cases hr
    obtain ⟨p', h2, o⟩ := ih _ rfl _ hn
    exact ⟨p', .panic h2, o⟩

end

end

end Lol
