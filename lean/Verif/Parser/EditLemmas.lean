import Verif.Parser.EditSpec
import Verif.Parser.ReadFacts
import Verif.Parser.FlatTotal

/-! # Lemmas: programs that differ in one statement, in place of which the other has one or more -/

namespace Lol

namespace Edited

variable {W : Block → Block → Prop}

theorem append_left {b b' : Block} (c : Block) (h : Edited W b b') : Edited W (c ++ b) (c ++ b') := by
  cases h with
  | lost h => exact .lost (List.mem_append_right c h)
  | here a b h => simpa [List.append_assoc] using Edited.here (W := W) (c ++ a) b h
  | loop a b t l o cd e h => simpa using Edited.loop (W := W) (c ++ a) b t l o cd e h
  | function a b t n p h => simpa using Edited.function (W := W) (c ++ a) b t n p h
  | case a b t l r o e d h => simpa using Edited.case (W := W) (c ++ a) b t l r o e d h
  | dflt a b t o u h => simpa using Edited.dflt (W := W) (c ++ a) b t o u h
  | yes a b t u n m h => simpa using Edited.yes (W := W) (c ++ a) b t u n m h
  | maybe a b t y n l r u e h => simpa using Edited.maybe (W := W) (c ++ a) b t y n l r u e h
  | no a b t u y m h => simpa using Edited.no (W := W) (c ++ a) b t u y m h

theorem append_right {b b' : Block} (c : Block) (h : Edited W b b') : Edited W (b ++ c) (b' ++ c) := by
  cases h with
  | lost h => exact .lost (List.mem_append_left c h)
  | here a b h => simpa [List.append_assoc] using Edited.here (W := W) a (b ++ c) h
  | loop a b t l o cd e h => simpa using Edited.loop (W := W) a (b ++ c) t l o cd e h
  | function a b t n p h => simpa using Edited.function (W := W) a (b ++ c) t n p h
  | case a b t l r o e d h => simpa using Edited.case (W := W) a (b ++ c) t l r o e d h
  | dflt a b t o u h => simpa using Edited.dflt (W := W) a (b ++ c) t o u h
  | yes a b t u n m h => simpa using Edited.yes (W := W) a (b ++ c) t u n m h
  | maybe a b t y n l r u e h => simpa using Edited.maybe (W := W) a (b ++ c) t y n l r u e h
  | no a b t u y m h => simpa using Edited.no (W := W) a (b ++ c) t u y m h

theorem mono {V : Block → Block → Prop} (hV : ∀ x x', W x x' → V x x') {b b' : Block} (h : Edited W b b') :
    Edited V b b' := by
  induction h with
  | lost h => exact .lost h
  | here a b h => exact .here a b (hV _ _ h)
  | loop a b t l o cd e _ ih => exact .loop a b t l o cd e ih
  | function a b t n p _ ih => exact .function a b t n p ih
  | case a b t l r o e d _ ih => exact .case a b t l r o e d ih
  | dflt a b t o u _ ih => exact .dflt a b t o u ih
  | yes a b t u n m _ ih => exact .yes a b t u n m ih
  | maybe a b t y n l r u e _ ih => exact .maybe a b t y n l r u e ih
  | no a b t u y m _ ih => exact .no a b t u y m ih

end Edited

/-- A statement that opens no block and ends none. -/
def PlainTokens (st : List Token) : Prop :=
  ∃ t r, st = t :: r ∧ (∀ k ∈ blockKeywords, ¬ t.Is k) ∧ ∀ k ∈ partKeywords, ¬ t.Is k

/-- The nodes of statements that are read one after the other. -/
inductive Runs : List (List Token) → Block → Prop
  | nil : Runs [] []
  | cons {p : List Token} {ps : List (List Token)} {y ys : Block} : (∀ l, StepR ⟨p, l⟩ (.ok y (.of l))) → Runs ps ys →
      Runs (p :: ps) (y ++ ys)

/-- The nodes of two statements. -/
inductive FirstR (st st' : List Token) : Block → Block → Prop
  | alone {x x' : Block} : (∀ l, StepR ⟨st, l⟩ (.ok x (.of l))) → (∀ l, StepR ⟨st', l⟩ (.ok x' (.of l))) →
      FirstR st st' x x'
  | misread {x x' : Block} : Misread st st' x x' → FirstR st st' x x'

/-- The nodes of the statement and of those in its place, of which those after the first are as given. -/
inductive OwnBy (st st' : List Token) (Run : Block → Prop) : Block → Block → Prop
  | mk {x x' ys : Block} : FirstR st st' x x' → Run ys → OwnBy st st' Run x (x' ++ ys)

/-- The nodes of the statement and of those in its place. -/
abbrev OwnR (st st' : List Token) (ps : List (List Token)) : Block → Block → Prop := OwnBy st st' (Runs ps)

/-- A statement that is the reason for a panic in the new program only. -/
def Culprit (st st' : List Token) (ps : List (List Token)) (q : List Token) : Prop :=
  (q ∈ ps ∧ ∀ q ∈ ps, PlainTokens q) ∨ q = st' ∧ ∃ x, ∀ l, StepR ⟨st, l⟩ (.ok x (.of l))

theorem Culprit.mem {st st' : List Token} {ps : List (List Token)} {q : List Token} (h : Culprit st st' ps q) :
    q ∈ st' :: ps := by
  rcases h with ⟨h, -⟩ | ⟨rfl, -⟩
  · exact List.mem_cons_of_mem _ h
  · exact List.mem_cons_self

theorem OwnR.first {st st' : List Token} {x x' : Block} (h : OwnR st st' [] x x') : FirstR st st' x x' := by
  obtain ⟨h1, h2⟩ := h
  cases h2
  rwa [List.append_nil]

section

variable (st st' : List Token) (ps post : List (List Token))

/-- Two states up to the changed statement. -/
inductive Near : Stmts → Stmts → Prop
  | before (cur : List Token) (pre : List (List Token)) : 
      Near ⟨cur, pre ++ st :: post⟩ ⟨cur, pre ++ st' :: (ps ++ post)⟩
  | here : Near ⟨st, post⟩ ⟨st', ps ++ post⟩

/-- Outcomes of two states that differ in one statement. -/
inductive RelRead {α : Type} (E : α → α → Prop) : Read α → Read α → Prop
  | near {a : α} {s s' : Stmts} : Near st st' ps post s s' → RelRead E (.ok a s) (.ok a s')
  | past {a a' : α} {s : Stmts} : E a a' → RelRead E (.ok a s) (.ok a' s)
  | errorNear {e : ASTError} {s s' : Stmts} : Near st st' ps post s s' → RelRead E (.error e s) (.error e s')
  | errorPast {e : ASTError} {s : Stmts} : RelRead E (.error e s) (.error e s)
  | unexpected {t t' : Token} {r r' : List Token} : st = t :: r → st' = t' :: r' →
      RelRead E (.error (.unexpectedToken t) ⟨r, post⟩) (.error (.unexpectedToken t') ⟨r', ps ++ post⟩)
  | panic {r : Read α} {p : PanicSite} {q : List Token} : Culprit st st' ps q → (∀ l, StepR ⟨q, l⟩ (.panic p)) →
      RelRead E r (.panic p)

end

section

variable {st st' : List Token} {ps post : List (List Token)}

theorem near_of (pre : List (List Token)) :
    Near st st' ps post (.of (pre ++ st :: post)) (.of (pre ++ st' :: (ps ++ post))) := by
  cases pre with
  | nil => exact .here
  | cons c pre => exact .before c pre

theorem PlainTokens.not_is {r : List Token} {t : Token} (h : PlainTokens (t :: r)) {k : Keyword}
    (hk : k ∈ partKeywords) : ¬ t.Is k := by
  obtain ⟨_, _, he, -, h⟩ := h
  cases he
  exact h k hk

theorem PlainTokens.notFirst (h : PlainTokens st) {k : Keyword} (hk : k ∈ partKeywords) : NotFirst k st := by
  rintro t r rfl
  exact h.not_is hk

theorem PlainTokens.ne_nil (h : PlainTokens st) : st ≠ [] := by
  obtain ⟨_, _, rfl, -⟩ := h
  simp

theorem PlainTokens.step (h : PlainTokens st) : (∃ x, ∀ l, StepR ⟨st, l⟩ (.ok x (.of l))) ∨
    ∃ p, ∀ l, StepR ⟨st, l⟩ (.panic p) := by
  obtain ⟨t, r, rfl, ht, -⟩ := h
  obtain ⟨ts, rest, he, ⟨node, h⟩ | ⟨f, h⟩⟩ := flat_total ht r
  · exact .inl ⟨_, fun l => by rw [he]; exact .ok (.simple h)⟩
  · cases f with
    | error e => exact .inl ⟨_, fun l => by rw [he]; exact .error (.simpleFail h)⟩
    | panic p => exact .inr ⟨p, fun l => by rw [he]; exact .panic (.simpleFail h)⟩

/-- Near states have the same current statement, or are at the changed one. -/
theorem Near.inv {s s' : Stmts} (h : Near st st' ps post s s') :
    (∃ pre, s.later = pre ++ st :: post ∧ s' = ⟨s.cur, pre ++ st' :: (ps ++ post)⟩) ∨
      (s = ⟨st, post⟩ ∧ s' = ⟨st', ps ++ post⟩) := by
  cases h with
  | before cur pre => exact .inl ⟨pre, rfl, rfl⟩
  | here => exact .inr ⟨rfl, rfl⟩

/-- Near states in which the first is at one of the keywords of constructs. -/
theorem Near.key {t : Token} {r : List Token} {l : List (List Token)} {s' : Stmts}
    (h : Near st st' ps post ⟨t :: r, l⟩ s') (hp : PlainTokens st) {k : Keyword} (hk : k ∈ partKeywords) (ht : t.Is k) :
    ∃ pre, l = pre ++ st :: post ∧ s' = ⟨t :: r, pre ++ st' :: (ps ++ post)⟩ := by
  rcases h.inv with ⟨pre, h1, h2⟩ | ⟨h1, -⟩
  · exact ⟨pre, h1, h2⟩
  · cases h1
    exact absurd ht (hp.not_is hk)

theorem Near.nil {l : List (List Token)} {s' : Stmts} (h : Near st st' ps post ⟨[], l⟩ s') (hp : PlainTokens st) :
    ∃ pre, l = pre ++ st :: post ∧ s' = ⟨[], pre ++ st' :: (ps ++ post)⟩ := by
  rcases h.inv with ⟨pre, h1, h2⟩ | ⟨h1, -⟩
  · exact ⟨pre, h1, h2⟩
  · cases h1
    exact absurd rfl hp.ne_nil

theorem Near.notFirst {s s' : Stmts} (h : Near st st' ps post s s') (hp' : PlainTokens st') {k : Keyword}
    (hk : k ∈ partKeywords) (hn : NotFirst k s.cur) : NotFirst k s'.cur := by
  rcases h.inv with ⟨pre, h1, rfl⟩ | ⟨rfl, rfl⟩
  · exact hn
  · exact hp'.notFirst hk

theorem Near.of_stop {s s' : Stmts} (h : Near st st' ps post s s') (hp : PlainTokens st) {close : List Keyword}
    (hc : ∀ k ∈ close, k ∈ partKeywords) (hs : Stop close s) :
    ∃ pre, s.later = pre ++ st :: post ∧ s' = ⟨s.cur, pre ++ st' :: (ps ++ post)⟩ := by
  rcases h.inv with h | ⟨rfl, rfl⟩
  · exact h
  · rcases hs with hs | ⟨t, r, hs, k, hk, ht⟩
    · exact absurd hs hp.ne_nil
    · cases hs
      exact absurd ht (hp.not_is (hc k hk))

theorem Near.stop {s s' : Stmts} (h : Near st st' ps post s s') (hp : PlainTokens st) (hp' : PlainTokens st')
    {close : List Keyword} (hc : ∀ k ∈ close, k ∈ partKeywords) : Stop close s ↔ Stop close s' := by
  have hno : ∀ {st : List Token}, ∀ {post}, PlainTokens st → ¬ Stop close ⟨st, post⟩ := by
    rintro st post hp (h | ⟨t, r, h, k, hk, ht⟩)
    · exact hp.ne_nil h
    · cases h
      exact hp.not_is (hc k hk) ht
  rcases h.inv with ⟨pre, h1, rfl⟩ | ⟨rfl, rfl⟩
  · exact Iff.rfl
  · exact ⟨fun h => absurd h (hno hp), fun h => absurd h (hno hp')⟩

namespace RelRead

variable {α β : Type} {E : α → α → Prop} {F : β → β → Prop}

theorem ok_inv {a : α} {s : Stmts} {r' : Read α} (h : RelRead st st' ps post E (.ok a s) r') :
    (∃ s', r' = .ok a s' ∧ Near st st' ps post s s') ∨ (∃ a', r' = .ok a' s ∧ E a a') ∨
      ∃ p, r' = .panic p ∧ ∃ q, Culprit st st' ps q ∧ ∀ l, StepR ⟨q, l⟩ (.panic p) := by
  cases h with
  | near h => exact .inl ⟨_, rfl, h⟩
  | past h => exact .inr (.inl ⟨_, rfl, h⟩)
  | panic h1 h2 => exact .inr (.inr ⟨_, rfl, _, h1, h2⟩)

theorem error_inv {e : ASTError} {s : Stmts} {r' : Read α} (h : RelRead st st' ps post E (.error e s) r') :
    ∃ (f : Fail) (s' : Stmts), r' = f.read s' ∧ RelRead st st' ps post F (.error e s) (f.read s') := by
  cases h with
  | errorNear h => exact ⟨.error _, _, rfl, .errorNear h⟩
  | errorPast => exact ⟨.error _, _, rfl, .errorPast⟩
  | unexpected h1 h2 => exact ⟨.error _, _, rfl, .unexpected h1 h2⟩
  | panic h1 h2 => exact ⟨.panic _, s, rfl, .panic h1 h2⟩

theorem map {f : α → β} (hf : ∀ a a', E a a' → F (f a) (f a')) {r r' : Read α} (h : RelRead st st' ps post E r r') :
    RelRead st st' ps post F (r.map f) (r'.map f) := by
  cases h with
  | near h => exact .near h
  | past h => exact .past (hf _ _ h)
  | errorNear h => exact .errorNear h
  | errorPast => exact .errorPast
  | unexpected h1 h2 => exact .unexpected h1 h2
  | panic h1 h2 => exact .panic h1 h2

/-- Past the changed statement. -/
theorem map_past {f f' : α → β} {r : Read α} (hf : ∀ a, F (f a) (f' a)) (hr : ∀ p, r ≠ .panic p) :
    RelRead st st' ps post F (r.map f) (r.map f') := by
  cases r with
  | ok a s => exact .past (hf a)
  | error e s => exact .errorPast
  | panic p => exact absurd rfl (hr p)

end RelRead

/-! ## What may differ in the parts of a construct -/

/-- Nodes. -/
def ENode (W : Block → Block → Prop) (n n' : Node) : Prop := Edited W [n] [n']

/-- Cases of a switch. -/
def EOmgs (W : Block → Block → Prop) (o o' : List WtfOmg) : Prop :=
  ∀ t l d, Edited W [.wtf t (l ++ o) d] [.wtf t (l ++ o') d]

/-- The default of a switch. -/
def EOmgWtf (W : Block → Block → Prop) (o o' : Option WtfOmgWtf) : Prop :=
  ∀ t l, Edited W [.wtf t l o] [.wtf t l o']

/-- The first part of a conditional. -/
def EYaRly (W : Block → Block → Prop) (o o' : Option YaRly) : Prop :=
  ∀ t n l, Edited W [.oRly t o n l] [.oRly t o' n l]

/-- The middle parts of a conditional. -/
def EMebbes (W : Block → Block → Prop) (o o' : List Mebbe) : Prop :=
  ∀ t y n l, Edited W [.oRly t y n (l ++ o)] [.oRly t y n (l ++ o')]

/-- The last part of a conditional. -/
def ENoWai (W : Block → Block → Prop) (o o' : Option NoWai) : Prop :=
  ∀ t y l, Edited W [.oRly t y o l] [.oRly t y o' l]

theorem map_ne_panic {α β : Type} {f : α → β} {r : Read α} (h : ∀ p, r.map f ≠ .panic p) : ∀ p, r ≠ .panic p := by
  rintro p rfl
  exact h p rfl

theorem read_error {α : Type} {f : Fail} {s : Stmts} (h : ∀ p, (f.read s : Read α) ≠ .panic p) : ∃ e, f = .error e := by
  cases f with
  | error e => exact ⟨e, rfl⟩
  | panic p => exact absurd rfl (h p)

/-! ## All relations -/

theorem read_near {α : Type} {E : α → α → Prop} {f : Fail} {rest : List Token} {pre : List (List Token)}
    (h : ∀ p, (f.read ⟨rest, pre ++ st :: post⟩ : Read α) ≠ .panic p) :
    RelRead st st' ps post E (f.read ⟨rest, pre ++ st :: post⟩) (f.read ⟨rest, pre ++ st' :: (ps ++ post)⟩) := by
  obtain ⟨e, rfl⟩ := read_error h
  exact .errorNear (.before _ _)

theorem close_loop : ∀ k ∈ closeLoop, k ∈ partKeywords := by decide
theorem close_function : ∀ k ∈ closeFunction, k ∈ partKeywords := by decide
theorem close_switch : ∀ k ∈ closeSwitch, k ∈ partKeywords := by decide
theorem close_if : ∀ k ∈ closeIf, k ∈ partKeywords := by decide

/-- A step over the changed statement. -/
inductive Passed (st st' : List Token) (ps post : List (List Token)) : Read Block → Read Block → Prop
  | mk (a : Block) {y y' : Block} : FirstR st st' y y' →
      Passed st st' ps post (.ok (a ++ y) (.of post)) (.ok (a ++ y') (.of (ps ++ post)))

variable {Run : Block → Prop}

theorem step_here (hp : PlainTokens st) (hp' : PlainTokens st') {r : Read Block} (h : StepR ⟨st, post⟩ r)
    (hr : ∀ p, r ≠ .panic p) :
    ∃ r', StepR ⟨st', ps ++ post⟩ r' ∧
      (RelRead st st' ps post (Edited (OwnBy st st' Run)) r r' ∨ Passed st st' ps post r r') := by
  rcases hp.step with ⟨x, hx⟩ | ⟨p, hx⟩
  · cases h.det (hx post)
    rcases hp'.step with ⟨x', hx'⟩ | ⟨p, hx'⟩
    · exact ⟨_, hx' _, .inr (.mk [] (.alone hx hx'))⟩
    · exact ⟨_, hx' _, .inl (.panic (.inr ⟨rfl, x, hx⟩) hx')⟩
  · exact absurd (h.det (hx post)) (hr p)

/-- The rest of a block. -/
inductive Rest (close : List Keyword) (s : Stmts) : Read Block → Prop
  | stop : Stop close s → Rest close s (.ok [] s)
  | more {r : Read Block} : ¬ Stop close s → BlockR close s r → Rest close s r

theorem BlockR.of_rest {close : List Keyword} {s s1 : Stmts} {x : Block} {r : Read Block} (h : StepR s (.ok x s1))
    (hr : Rest close s1 r) : BlockR close s (r.map (x ++ ·)) := by
  cases hr with
  | stop hs => simpa [Read.map] using BlockR.last h hs
  | more hs hb => exact .more h hs hb

theorem Read.map_append (r : Read Block) (x y : Block) : (r.map (y ++ ·)).map (x ++ ·) = r.map (x ++ y ++ ·) := by
  cases r <;> simp [Read.map]

/-- Further statements do not change how the rest of a block is read. -/
def ReadBefore (ps post : List (List Token)) (Run : Block → Prop) : Prop :=
  ∀ close : List Keyword, (∀ k ∈ close, k ∈ partKeywords) → ∀ r, Rest close (.of post) r →
    (∃ ys, Run ys ∧ Rest close (.of (ps ++ post)) (r.map (ys ++ ·))) ∨
    ∃ p, Rest close (.of (ps ++ post)) (.panic p) ∧ (∀ q ∈ ps, PlainTokens q) ∧ ∃ q ∈ ps, ∀ l, StepR ⟨q, l⟩ (.panic p)

/-- The rest of a block after further statements. -/
theorem Rest.run {close : List Keyword} (hc : ∀ k ∈ close, k ∈ partKeywords) {r : Read Block}
    (h : Rest close (.of post) r) : ∀ ps, (∀ q ∈ ps, PlainTokens q) →
      (∃ ys, Runs ps ys ∧ Rest close (.of (ps ++ post)) (r.map (ys ++ ·))) ∨
      ∃ p, Rest close (.of (ps ++ post)) (.panic p) ∧ ∃ q ∈ ps, ∀ l, StepR ⟨q, l⟩ (.panic p)
  | [], _ => .inl ⟨[], .nil, by cases r <;> exact h⟩
  | q :: ps, hps => by
    have hq := hps q List.mem_cons_self
    have hs : ¬ Stop close (.of (q :: ps ++ post)) := by
      rintro (h | ⟨t, r, h, k, hk, ht⟩)
      · exact hq.ne_nil h
      · have h : q = t :: r := h
        rw [h] at hq
        exact hq.not_is (hc k hk) ht
    rcases hq.step with ⟨y, hy⟩ | ⟨p, hy⟩
    · rcases Rest.run hc h ps fun q h => hps q (List.mem_cons_of_mem _ h) with ⟨ys, h1, h2⟩ | ⟨p, h1, q', h2, h3⟩
      · refine .inl ⟨y ++ ys, .cons hy h1, .more hs ?_⟩
        rw [← Read.map_append]
        exact .of_rest (hy _) h2
      · exact .inr ⟨p, .more hs (.of_rest (r := .panic p) (hy _) h1), q', List.mem_cons_of_mem _ h2, h3⟩
    · exact .inr ⟨p, .more hs (.panic (hy _)), q, List.mem_cons_self, hy⟩

/-- A block with a step over the changed statement. -/
theorem Passed.block {close : List Keyword} (hc : ∀ k ∈ close, k ∈ partKeywords) (hps : ReadBefore ps post Run)
    {x : Block} {s1 s' : Stmts} {r r' : Read Block} (h : Passed st st' ps post (.ok x s1) r') (h' : StepR s' r')
    (hr : Rest close s1 r) (hn : ∀ p, r.map (x ++ ·) ≠ .panic p) :
    ∃ r', BlockR close s' r' ∧ RelRead st st' ps post (Edited (OwnBy st st' Run)) (r.map (x ++ ·)) r' := by
  generalize hx : Read.ok x s1 = r0 at h
  obtain ⟨a, hf⟩ := h
  cases hx
  rcases hps _ hc _ hr with ⟨ys, h1, h2⟩ | ⟨p, h1, h0, q, h2, h3⟩
  · refine ⟨_, .of_rest h' h2, ?_⟩
    rw [Read.map_append]
    cases r with
    | ok b s =>
      refine .past ?_
      have := Edited.here a b (OwnBy.mk hf h1)
      simpa using this
    | error e s => exact .errorPast
    | panic p => exact absurd rfl (hn p)
  · exact ⟨_, .of_rest h' h1, .panic (.inl ⟨h2, h0⟩) h3⟩

variable (hp : PlainTokens st) (hp' : PlainTokens st') (hps : ReadBefore ps post Run)

include hp hp' hps

mutual

theorem NodeR.editBy : {s : Stmts} → {r : Read Node} → NodeR s r → (∀ p, r ≠ .panic p) →
    ∀ pre, s.later = pre ++ st :: post → ∃ r', NodeR ⟨s.cur, pre ++ st' :: (ps ++ post)⟩ r' ∧
      RelRead st st' ps post (ENode (OwnBy st st' Run)) r r'
  | _, _, .simple h, _, pre, hl => by
    cases hl
    exact ⟨_, .simple h, .near (.before _ _)⟩
  | _, _, .simpleFail h, hr, pre, hl => by
    cases hl
    exact ⟨_, .simpleFail h, read_near hr⟩
  | _, _, .hai h, _, pre, hl => by
    cases hl
    exact ⟨_, .hai h, .near (near_of pre)⟩
  | _, _, .headFail h, hr, pre, hl => by
    cases hl
    exact ⟨_, .headFail h, read_near hr⟩
  | _, _, .headLeft h h1, _, pre, hl => by
    cases hl
    exact ⟨_, .headLeft h h1, .errorNear (near_of pre)⟩
  | _, _, .loop h hb h1, _, pre, hl => by
    have ih_hb := BlockR.editBy hb
    cases hl
    obtain ⟨r', h2, h3⟩ := ih_hb (by simp) close_loop _ (near_of pre)
    rcases h3.ok_inv with ⟨s', rfl, h4⟩ | ⟨a', rfl, h4⟩ | ⟨p, rfl, h4⟩
    · obtain ⟨pre', rfl, rfl⟩ := h4.of_stop hp close_loop (hb.stop _ _ rfl)
      exact ⟨_, .loop h h2 h1, .near (.before _ _)⟩
    · exact ⟨_, .loop h h2 h1, .past (Edited.loop [] [] _ _ _ _ _ h4)⟩
    · exact ⟨_, .loopPanic h h2, .panic h4.choose_spec.1 h4.choose_spec.2⟩
  | _, _, .loopPanic _ _, hr, _, _ => absurd rfl (hr _)
  | _, _, .loopEnd h hb, _, pre, hl => by
    have ih_hb := BlockR.editBy hb
    cases hl
    obtain ⟨r', h2, h3⟩ := ih_hb (by simp) close_loop _ (near_of pre)
    rcases h3.ok_inv with ⟨s', rfl, h4⟩ | ⟨a', rfl, h4⟩ | ⟨p, rfl, h4⟩
    · obtain ⟨pre', rfl, rfl⟩ := h4.of_stop hp close_loop (hb.stop _ _ rfl)
      exact ⟨_, .loopEnd h h2, .errorNear (.before _ _)⟩
    · exact ⟨_, .loopEnd h h2, .errorPast⟩
    · exact ⟨_, .loopPanic h h2, .panic h4.choose_spec.1 h4.choose_spec.2⟩
  | _, _, .loopLabelEnd h hb, _, pre, hl => by
    have ih_hb := BlockR.editBy hb
    cases hl
    obtain ⟨r', h2, h3⟩ := ih_hb (by simp) close_loop _ (near_of pre)
    rcases h3.ok_inv with ⟨s', rfl, h4⟩ | ⟨a', rfl, h4⟩ | ⟨p, rfl, h4⟩
    · obtain ⟨pre', rfl, rfl⟩ := h4.of_stop hp close_loop (hb.stop _ _ rfl)
      exact ⟨_, .loopLabelEnd h h2, .errorNear (.before _ _)⟩
    · exact ⟨_, .loopLabelEnd h h2, .errorPast⟩
    · exact ⟨_, .loopPanic h h2, .panic h4.choose_spec.1 h4.choose_spec.2⟩
  | _, _, .loopLabel h hb h1, _, pre, hl => by
    have ih_hb := BlockR.editBy hb
    cases hl
    obtain ⟨r', h2, h3⟩ := ih_hb (by simp) close_loop _ (near_of pre)
    rcases h3.ok_inv with ⟨s', rfl, h4⟩ | ⟨a', rfl, h4⟩ | ⟨p, rfl, h4⟩
    · obtain ⟨pre', rfl, rfl⟩ := h4.of_stop hp close_loop (hb.stop _ _ rfl)
      exact ⟨_, .loopLabel h h2 h1, .errorNear (.before _ _)⟩
    · exact ⟨_, .loopLabel h h2 h1, .errorPast⟩
    · exact ⟨_, .loopPanic h h2, .panic h4.choose_spec.1 h4.choose_spec.2⟩
  | _, _, .function h hb, _, pre, hl => by
    have ih_hb := BlockR.editBy hb
    cases hl
    obtain ⟨r', h2, h3⟩ := ih_hb (by simp) close_function _ (near_of pre)
    rcases h3.ok_inv with ⟨s', rfl, h4⟩ | ⟨a', rfl, h4⟩ | ⟨p, rfl, h4⟩
    · obtain ⟨pre', rfl, rfl⟩ := h4.of_stop hp close_function (hb.stop _ _ rfl)
      exact ⟨_, .function h h2, .near (near_of _)⟩
    · exact ⟨_, .function h h2, .past (Edited.function [] [] _ _ _ h4)⟩
    · exact ⟨_, .functionPanic h h2, .panic h4.choose_spec.1 h4.choose_spec.2⟩
  | _, _, .functionPanic _ _, hr, _, _ => absurd rfl (hr _)
  | _, _, .functionEnd h hb, _, pre, hl => by
    have ih_hb := BlockR.editBy hb
    cases hl
    obtain ⟨r', h2, h3⟩ := ih_hb (by simp) close_function _ (near_of pre)
    rcases h3.ok_inv with ⟨s', rfl, h4⟩ | ⟨a', rfl, h4⟩ | ⟨p, rfl, h4⟩
    · obtain ⟨pre', rfl, rfl⟩ := h4.of_stop hp close_function (hb.stop _ _ rfl)
      exact ⟨_, .functionEnd h h2, .errorNear (.before _ _)⟩
    · exact ⟨_, .functionEnd h h2, .errorPast⟩
    · exact ⟨_, .functionPanic h h2, .panic h4.choose_spec.1 h4.choose_spec.2⟩
  | _, _, .functionLeft h hb h1, _, pre, hl => by
    have ih_hb := BlockR.editBy hb
    cases hl
    obtain ⟨r', h2, h3⟩ := ih_hb (by simp) close_function _ (near_of pre)
    rcases h3.ok_inv with ⟨s', rfl, h4⟩ | ⟨a', rfl, h4⟩ | ⟨p, rfl, h4⟩
    · obtain ⟨pre', rfl, rfl⟩ := h4.of_stop hp close_function (hb.stop _ _ rfl)
      exact ⟨_, .functionLeft h h2 h1, .errorNear (near_of _)⟩
    · exact ⟨_, .functionLeft h h2 h1, .errorPast⟩
    · exact ⟨_, .functionPanic h h2, .panic h4.choose_spec.1 h4.choose_spec.2⟩
  | _, _, .switch h q0 q1 hc, _, pre, hl => by
    have ih_q0 := OmgsR.editBy q0
    have ih_q1 := OmgWtfR.editBy q1
    cases hl
    obtain ⟨r', p0, e0⟩ := ih_q0 (by simp) _ (near_of pre)
    rcases e0.ok_inv with ⟨s', rfl, n0⟩ | ⟨a', rfl, d0⟩ | ⟨p, rfl, d0⟩
    · obtain ⟨r', p1, e1⟩ := ih_q1 (by simp) _ n0
      rcases e1.ok_inv with ⟨s', rfl, n1⟩ | ⟨a', rfl, d1⟩ | ⟨p, rfl, d1⟩
      · obtain ⟨pre', rfl, rfl⟩ := n1.key hp (k := .OIC) (by decide) hc
        exact ⟨_, .switch h p0 p1 hc, .near (near_of _)⟩
      · exact ⟨_, .switch h p0 p1 hc, .past (d1 _ _)⟩
      · exact ⟨_, .switchDefault (f := .panic p) (s := ⟨[], []⟩) h p0 p1, .panic d1.choose_spec.1 d1.choose_spec.2⟩
    · exact ⟨_, .switch h p0 q1 hc, .past (by simpa [ENode] using d0 _ [] _)⟩
    · exact ⟨_, .switchCases (f := .panic p) (s := ⟨[], []⟩) h p0, .panic d0.choose_spec.1 d0.choose_spec.2⟩
  | _, _, .switchCases h q0, hr, pre, hl => by
    have ih_q0 := OmgsR.editBy q0
    cases hl
    obtain ⟨e, rfl⟩ := read_error hr
    obtain ⟨r', p0, e0⟩ := ih_q0 (fun p h => nomatch h) _ (near_of pre)
    obtain ⟨f, s', rfl, g⟩ := e0.error_inv (F := ENode (OwnBy st st' Run))
    exact ⟨_, .switchCases h p0, g⟩
  | _, _, .switchDefault h q0 q1, hr, pre, hl => by
    have ih_q0 := OmgsR.editBy q0
    have ih_q1 := OmgWtfR.editBy q1
    cases hl
    obtain ⟨e, rfl⟩ := read_error hr
    obtain ⟨r', p0, e0⟩ := ih_q0 (by simp) _ (near_of pre)
    rcases e0.ok_inv with ⟨s', rfl, n0⟩ | ⟨a', rfl, d0⟩ | ⟨p, rfl, d0⟩
    · obtain ⟨r', p1, e1⟩ := ih_q1 (fun p h => nomatch h) _ n0
      obtain ⟨f, s', rfl, g⟩ := e1.error_inv (F := ENode (OwnBy st st' Run))
      exact ⟨_, .switchDefault h p0 p1, g⟩
    · exact ⟨_, .switchDefault h p0 q1, .errorPast⟩
    · exact ⟨_, .switchCases (f := .panic p) (s := ⟨[], []⟩) h p0, .panic d0.choose_spec.1 d0.choose_spec.2⟩
  | _, _, .switchEnd h q0 q1, _, pre, hl => by
    have ih_q0 := OmgsR.editBy q0
    have ih_q1 := OmgWtfR.editBy q1
    cases hl
    obtain ⟨r', p0, e0⟩ := ih_q0 (by simp) _ (near_of pre)
    rcases e0.ok_inv with ⟨s', rfl, n0⟩ | ⟨a', rfl, d0⟩ | ⟨p, rfl, d0⟩
    · obtain ⟨r', p1, e1⟩ := ih_q1 (by simp) _ n0
      rcases e1.ok_inv with ⟨s', rfl, n1⟩ | ⟨a', rfl, d1⟩ | ⟨p, rfl, d1⟩
      · obtain ⟨pre', rfl, rfl⟩ := n1.nil hp
        exact ⟨_, .switchEnd h p0 p1, .errorNear (.before _ _)⟩
      · exact ⟨_, .switchEnd h p0 p1, .errorPast⟩
      · exact ⟨_, .switchDefault (f := .panic p) (s := ⟨[], []⟩) h p0 p1, .panic d1.choose_spec.1 d1.choose_spec.2⟩
    · exact ⟨_, .switchEnd h p0 q1, .errorPast⟩
    · exact ⟨_, .switchCases (f := .panic p) (s := ⟨[], []⟩) h p0, .panic d0.choose_spec.1 d0.choose_spec.2⟩
  | _, _, .switchOther h q0 q1 hc, _, pre, hl => by
    have ih_q0 := OmgsR.editBy q0
    have ih_q1 := OmgWtfR.editBy q1
    cases hl
    obtain ⟨r', p0, e0⟩ := ih_q0 (by simp) _ (near_of pre)
    rcases e0.ok_inv with ⟨s', rfl, n0⟩ | ⟨a', rfl, d0⟩ | ⟨p, rfl, d0⟩
    · obtain ⟨r', p1, e1⟩ := ih_q1 (by simp) _ n0
      rcases e1.ok_inv with ⟨s', rfl, n1⟩ | ⟨a', rfl, d1⟩ | ⟨p, rfl, d1⟩
      · rcases n1.inv with ⟨pre', rfl, rfl⟩ | ⟨hs, rfl⟩
        · exact ⟨_, .switchOther h p0 p1 hc, .errorNear (.before _ _)⟩
        · cases hs
          obtain ⟨t', r', rfl, -, hk⟩ := id hp'
          exact ⟨_, .switchOther h p0 p1 (hk .OIC (by decide)), .unexpected rfl rfl⟩
      · exact ⟨_, .switchOther h p0 p1 hc, .errorPast⟩
      · exact ⟨_, .switchDefault (f := .panic p) (s := ⟨[], []⟩) h p0 p1, .panic d1.choose_spec.1 d1.choose_spec.2⟩
    · exact ⟨_, .switchOther h p0 q1 hc, .errorPast⟩
    · exact ⟨_, .switchCases (f := .panic p) (s := ⟨[], []⟩) h p0, .panic d0.choose_spec.1 d0.choose_spec.2⟩
  | _, _, .switchLeft h q0 q1 hc hne, _, pre, hl => by
    have ih_q0 := OmgsR.editBy q0
    have ih_q1 := OmgWtfR.editBy q1
    cases hl
    obtain ⟨r', p0, e0⟩ := ih_q0 (by simp) _ (near_of pre)
    rcases e0.ok_inv with ⟨s', rfl, n0⟩ | ⟨a', rfl, d0⟩ | ⟨p, rfl, d0⟩
    · obtain ⟨r', p1, e1⟩ := ih_q1 (by simp) _ n0
      rcases e1.ok_inv with ⟨s', rfl, n1⟩ | ⟨a', rfl, d1⟩ | ⟨p, rfl, d1⟩
      · obtain ⟨pre', rfl, rfl⟩ := n1.key hp (k := .OIC) (by decide) hc
        exact ⟨_, .switchLeft h p0 p1 hc hne, .errorNear (near_of _)⟩
      · exact ⟨_, .switchLeft h p0 p1 hc hne, .errorPast⟩
      · exact ⟨_, .switchDefault (f := .panic p) (s := ⟨[], []⟩) h p0 p1, .panic d1.choose_spec.1 d1.choose_spec.2⟩
    · exact ⟨_, .switchLeft h p0 q1 hc hne, .errorPast⟩
    · exact ⟨_, .switchCases (f := .panic p) (s := ⟨[], []⟩) h p0, .panic d0.choose_spec.1 d0.choose_spec.2⟩
  | _, _, .conditional h q0 q1 q2 hc, _, pre, hl => by
    have ih_q0 := YaRlyR.editBy q0
    have ih_q1 := MebbesR.editBy q1
    have ih_q2 := NoWaiR.editBy q2
    cases hl
    obtain ⟨r', p0, e0⟩ := ih_q0 (by simp) _ (near_of pre)
    rcases e0.ok_inv with ⟨s', rfl, n0⟩ | ⟨a', rfl, d0⟩ | ⟨p, rfl, d0⟩
    · obtain ⟨r', p1, e1⟩ := ih_q1 (by simp) _ n0
      rcases e1.ok_inv with ⟨s', rfl, n1⟩ | ⟨a', rfl, d1⟩ | ⟨p, rfl, d1⟩
      · obtain ⟨r', p2, e2⟩ := ih_q2 (by simp) _ n1
        rcases e2.ok_inv with ⟨s', rfl, n2⟩ | ⟨a', rfl, d2⟩ | ⟨p, rfl, d2⟩
        · obtain ⟨pre', rfl, rfl⟩ := n2.key hp (k := .OIC) (by decide) hc
          exact ⟨_, .conditional h p0 p1 p2 hc, .near (.before _ _)⟩
        · exact ⟨_, .conditional h p0 p1 p2 hc, .past (d2 _ _ _)⟩
        · exact ⟨_, .conditionalNo (f := .panic p) (s := ⟨[], []⟩) h p0 p1 p2, .panic d2.choose_spec.1 d2.choose_spec.2⟩
      · exact ⟨_, .conditional h p0 p1 q2 hc, .past (by simpa [ENode] using d1 _ _ _ [])⟩
      · exact ⟨_, .conditionalMaybe (f := .panic p) (s := ⟨[], []⟩) h p0 p1, .panic d1.choose_spec.1 d1.choose_spec.2⟩
    · exact ⟨_, .conditional h p0 q1 q2 hc, .past (d0 _ _ _)⟩
    · exact ⟨_, .conditionalYes (f := .panic p) (s := ⟨[], []⟩) h p0, .panic d0.choose_spec.1 d0.choose_spec.2⟩
  | _, _, .conditionalYes h q0, hr, pre, hl => by
    have ih_q0 := YaRlyR.editBy q0
    cases hl
    obtain ⟨e, rfl⟩ := read_error hr
    obtain ⟨r', p0, e0⟩ := ih_q0 (fun p h => nomatch h) _ (near_of pre)
    obtain ⟨f, s', rfl, g⟩ := e0.error_inv (F := ENode (OwnBy st st' Run))
    exact ⟨_, .conditionalYes h p0, g⟩
  | _, _, .conditionalMaybe h q0 q1, hr, pre, hl => by
    have ih_q0 := YaRlyR.editBy q0
    have ih_q1 := MebbesR.editBy q1
    cases hl
    obtain ⟨e, rfl⟩ := read_error hr
    obtain ⟨r', p0, e0⟩ := ih_q0 (by simp) _ (near_of pre)
    rcases e0.ok_inv with ⟨s', rfl, n0⟩ | ⟨a', rfl, d0⟩ | ⟨p, rfl, d0⟩
    · obtain ⟨r', p1, e1⟩ := ih_q1 (fun p h => nomatch h) _ n0
      obtain ⟨f, s', rfl, g⟩ := e1.error_inv (F := ENode (OwnBy st st' Run))
      exact ⟨_, .conditionalMaybe h p0 p1, g⟩
    · exact ⟨_, .conditionalMaybe h p0 q1, .errorPast⟩
    · exact ⟨_, .conditionalYes (f := .panic p) (s := ⟨[], []⟩) h p0, .panic d0.choose_spec.1 d0.choose_spec.2⟩
  | _, _, .conditionalNo h q0 q1 q2, hr, pre, hl => by
    have ih_q0 := YaRlyR.editBy q0
    have ih_q1 := MebbesR.editBy q1
    have ih_q2 := NoWaiR.editBy q2
    cases hl
    obtain ⟨e, rfl⟩ := read_error hr
    obtain ⟨r', p0, e0⟩ := ih_q0 (by simp) _ (near_of pre)
    rcases e0.ok_inv with ⟨s', rfl, n0⟩ | ⟨a', rfl, d0⟩ | ⟨p, rfl, d0⟩
    · obtain ⟨r', p1, e1⟩ := ih_q1 (by simp) _ n0
      rcases e1.ok_inv with ⟨s', rfl, n1⟩ | ⟨a', rfl, d1⟩ | ⟨p, rfl, d1⟩
      · obtain ⟨r', p2, e2⟩ := ih_q2 (fun p h => nomatch h) _ n1
        obtain ⟨f, s', rfl, g⟩ := e2.error_inv (F := ENode (OwnBy st st' Run))
        exact ⟨_, .conditionalNo h p0 p1 p2, g⟩
      · exact ⟨_, .conditionalNo h p0 p1 q2, .errorPast⟩
      · exact ⟨_, .conditionalMaybe (f := .panic p) (s := ⟨[], []⟩) h p0 p1, .panic d1.choose_spec.1 d1.choose_spec.2⟩
    · exact ⟨_, .conditionalNo h p0 q1 q2, .errorPast⟩
    · exact ⟨_, .conditionalYes (f := .panic p) (s := ⟨[], []⟩) h p0, .panic d0.choose_spec.1 d0.choose_spec.2⟩
  | _, _, .conditionalEnd h q0 q1 q2, _, pre, hl => by
    have ih_q0 := YaRlyR.editBy q0
    have ih_q1 := MebbesR.editBy q1
    have ih_q2 := NoWaiR.editBy q2
    cases hl
    obtain ⟨r', p0, e0⟩ := ih_q0 (by simp) _ (near_of pre)
    rcases e0.ok_inv with ⟨s', rfl, n0⟩ | ⟨a', rfl, d0⟩ | ⟨p, rfl, d0⟩
    · obtain ⟨r', p1, e1⟩ := ih_q1 (by simp) _ n0
      rcases e1.ok_inv with ⟨s', rfl, n1⟩ | ⟨a', rfl, d1⟩ | ⟨p, rfl, d1⟩
      · obtain ⟨r', p2, e2⟩ := ih_q2 (by simp) _ n1
        rcases e2.ok_inv with ⟨s', rfl, n2⟩ | ⟨a', rfl, d2⟩ | ⟨p, rfl, d2⟩
        · obtain ⟨pre', rfl, rfl⟩ := n2.nil hp
          exact ⟨_, .conditionalEnd h p0 p1 p2, .errorNear (.before _ _)⟩
        · exact ⟨_, .conditionalEnd h p0 p1 p2, .errorPast⟩
        · exact ⟨_, .conditionalNo (f := .panic p) (s := ⟨[], []⟩) h p0 p1 p2, .panic d2.choose_spec.1 d2.choose_spec.2⟩
      · exact ⟨_, .conditionalEnd h p0 p1 q2, .errorPast⟩
      · exact ⟨_, .conditionalMaybe (f := .panic p) (s := ⟨[], []⟩) h p0 p1, .panic d1.choose_spec.1 d1.choose_spec.2⟩
    · exact ⟨_, .conditionalEnd h p0 q1 q2, .errorPast⟩
    · exact ⟨_, .conditionalYes (f := .panic p) (s := ⟨[], []⟩) h p0, .panic d0.choose_spec.1 d0.choose_spec.2⟩
  | _, _, .conditionalOther h q0 q1 q2 hc, _, pre, hl => by
    have ih_q0 := YaRlyR.editBy q0
    have ih_q1 := MebbesR.editBy q1
    have ih_q2 := NoWaiR.editBy q2
    cases hl
    obtain ⟨r', p0, e0⟩ := ih_q0 (by simp) _ (near_of pre)
    rcases e0.ok_inv with ⟨s', rfl, n0⟩ | ⟨a', rfl, d0⟩ | ⟨p, rfl, d0⟩
    · obtain ⟨r', p1, e1⟩ := ih_q1 (by simp) _ n0
      rcases e1.ok_inv with ⟨s', rfl, n1⟩ | ⟨a', rfl, d1⟩ | ⟨p, rfl, d1⟩
      · obtain ⟨r', p2, e2⟩ := ih_q2 (by simp) _ n1
        rcases e2.ok_inv with ⟨s', rfl, n2⟩ | ⟨a', rfl, d2⟩ | ⟨p, rfl, d2⟩
        · rcases n2.inv with ⟨pre', rfl, rfl⟩ | ⟨hs, rfl⟩
          · exact ⟨_, .conditionalOther h p0 p1 p2 hc, .errorNear (.before _ _)⟩
          · cases hs
            obtain ⟨t', r', rfl, -, hk⟩ := id hp'
            exact ⟨_, .conditionalOther h p0 p1 p2 (hk .OIC (by decide)), .unexpected rfl rfl⟩
        · exact ⟨_, .conditionalOther h p0 p1 p2 hc, .errorPast⟩
        · exact ⟨_, .conditionalNo (f := .panic p) (s := ⟨[], []⟩) h p0 p1 p2, .panic d2.choose_spec.1 d2.choose_spec.2⟩
      · exact ⟨_, .conditionalOther h p0 p1 q2 hc, .errorPast⟩
      · exact ⟨_, .conditionalMaybe (f := .panic p) (s := ⟨[], []⟩) h p0 p1, .panic d1.choose_spec.1 d1.choose_spec.2⟩
    · exact ⟨_, .conditionalOther h p0 q1 q2 hc, .errorPast⟩
    · exact ⟨_, .conditionalYes (f := .panic p) (s := ⟨[], []⟩) h p0, .panic d0.choose_spec.1 d0.choose_spec.2⟩

theorem OmgsR.editBy : {s : Stmts} → {r : Read (List WtfOmg)} → OmgsR s r → (∀ p, r ≠ .panic p) →
    ∀ s', Near st st' ps post s s' → ∃ r', OmgsR s' r' ∧ RelRead st st' ps post (EOmgs (OwnBy st st' Run)) r r'
  | _, _, .nil h, _, _, hn => ⟨_, .nil (hn.notFirst hp' (by decide) h), .near hn⟩
  | _, _, .valueEnd h, _, _, hn => by
    obtain ⟨pre', rfl, rfl⟩ := hn.key hp (by decide) h
    exact ⟨_, .valueEnd h, .errorNear (.before _ _)⟩
  | _, _, .value h h1, hr, _, hn => by
    obtain ⟨pre', rfl, rfl⟩ := hn.key hp (by decide) h
    exact ⟨_, .value h h1, read_near hr⟩
  | _, _, .left h h1 h2 h3, _, _, hn => by
    obtain ⟨pre', rfl, rfl⟩ := hn.key hp (by decide) h
    exact ⟨_, .left h h1 h2 h3, .errorNear (near_of _)⟩
  | _, _, .body _ _ _, hr, _, _ => absurd rfl (hr _)
  | _, _, .cons h h1 hb ho, hr, _, hn => by
    have ih_hb := BlockR.editBy hb
    have ih_ho := OmgsR.editBy ho
    obtain ⟨pre', rfl, rfl⟩ := hn.key hp (by decide) h
    obtain ⟨r', p0, e0⟩ := ih_hb (by simp) close_switch _ (near_of pre')
    rcases e0.ok_inv with ⟨s', rfl, n0⟩ | ⟨a', rfl, d0⟩ | ⟨p, rfl, d0⟩
    · obtain ⟨r', p1, e1⟩ := ih_ho (map_ne_panic hr) _ n0
      refine ⟨_, .cons h h1 p0 p1, e1.map fun a a' ha => ?_⟩
      intro t l d
      rw [List.append_cons, List.append_cons (as := l) (bs := a')]
      exact ha t _ d
    · refine ⟨_, .cons h h1 p0 ho, .map_past (fun a => ?_) (map_ne_panic hr)⟩
      intro t l d
      exact Edited.case [] [] t l a _ _ d d0
    · exact ⟨_, .body h h1 p0, .panic d0.choose_spec.1 d0.choose_spec.2⟩

theorem MebbesR.editBy : {s : Stmts} → {r : Read (List Mebbe)} → MebbesR s r → (∀ p, r ≠ .panic p) →
    ∀ s', Near st st' ps post s s' → ∃ r', MebbesR s' r' ∧ RelRead st st' ps post (EMebbes (OwnBy st st' Run)) r r'
  | _, _, .nil h, _, _, hn => ⟨_, .nil (hn.notFirst hp' (by decide) h), .near hn⟩
  | _, _, .valueEnd h, _, _, hn => by
    obtain ⟨pre', rfl, rfl⟩ := hn.key hp (by decide) h
    exact ⟨_, .valueEnd h, .errorNear (.before _ _)⟩
  | _, _, .value h h1, hr, _, hn => by
    obtain ⟨pre', rfl, rfl⟩ := hn.key hp (by decide) h
    exact ⟨_, .value h h1, read_near hr⟩
  | _, _, .left h h1 h2 h3, _, _, hn => by
    obtain ⟨pre', rfl, rfl⟩ := hn.key hp (by decide) h
    exact ⟨_, .left h h1 h2 h3, .errorNear (near_of _)⟩
  | _, _, .body _ _ _, hr, _, _ => absurd rfl (hr _)
  | _, _, .cons h h1 hb ho, hr, _, hn => by
    have ih_hb := BlockR.editBy hb
    have ih_ho := MebbesR.editBy ho
    obtain ⟨pre', rfl, rfl⟩ := hn.key hp (by decide) h
    obtain ⟨r', p0, e0⟩ := ih_hb (by simp) close_if _ (near_of pre')
    rcases e0.ok_inv with ⟨s', rfl, n0⟩ | ⟨a', rfl, d0⟩ | ⟨p, rfl, d0⟩
    · obtain ⟨r', p1, e1⟩ := ih_ho (map_ne_panic hr) _ n0
      refine ⟨_, .cons h h1 p0 p1, e1.map fun a a' ha => ?_⟩
      intro t y n l
      rw [List.append_cons, List.append_cons (as := l) (bs := a')]
      exact ha t y n _
    · refine ⟨_, .cons h h1 p0 ho, .map_past (fun a => ?_) (map_ne_panic hr)⟩
      intro t y n l
      exact Edited.maybe [] [] t y n l a _ _ d0
    · exact ⟨_, .body h h1 p0, .panic d0.choose_spec.1 d0.choose_spec.2⟩

theorem OmgWtfR.editBy : {s : Stmts} → {r : Read (Option WtfOmgWtf)} → OmgWtfR s r → (∀ p, r ≠ .panic p) →
    ∀ s', Near st st' ps post s s' → ∃ r', OmgWtfR s' r' ∧ RelRead st st' ps post (EOmgWtf (OwnBy st st' Run)) r r'
  | _, _, .none h, _, _, hn => ⟨_, .none (hn.notFirst hp' (by decide) h), .near hn⟩
  | _, _, .left h h1, _, _, hn => by
    obtain ⟨pre', rfl, rfl⟩ := hn.key hp (by decide) h
    exact ⟨_, .left h h1, .errorNear (near_of _)⟩
  | _, _, .some h hb, hr, _, hn => by
    have ih_hb := BlockR.editBy hb
    obtain ⟨pre', rfl, rfl⟩ := hn.key hp (by decide) h
    obtain ⟨r', p0, e0⟩ := ih_hb (map_ne_panic hr) close_switch _ (near_of pre')
    refine ⟨_, .some h p0, e0.map fun a a' ha => ?_⟩
    intro t l
    exact Edited.dflt [] [] t l _ ha

theorem YaRlyR.editBy : {s : Stmts} → {r : Read (Option YaRly)} → YaRlyR s r → (∀ p, r ≠ .panic p) →
    ∀ s', Near st st' ps post s s' → ∃ r', YaRlyR s' r' ∧ RelRead st st' ps post (EYaRly (OwnBy st st' Run)) r r'
  | _, _, .none h, _, _, hn => ⟨_, .none (hn.notFirst hp' (by decide) h), .near hn⟩
  | _, _, .left h h1, _, _, hn => by
    obtain ⟨pre', rfl, rfl⟩ := hn.key hp (by decide) h
    exact ⟨_, .left h h1, .errorNear (near_of _)⟩
  | _, _, .some h hb, hr, _, hn => by
    have ih_hb := BlockR.editBy hb
    obtain ⟨pre', rfl, rfl⟩ := hn.key hp (by decide) h
    obtain ⟨r', p0, e0⟩ := ih_hb (map_ne_panic hr) close_if _ (near_of pre')
    refine ⟨_, .some h p0, e0.map fun a a' ha => ?_⟩
    intro t n l
    exact Edited.yes [] [] t _ n l ha

theorem NoWaiR.editBy : {s : Stmts} → {r : Read (Option NoWai)} → NoWaiR s r → (∀ p, r ≠ .panic p) →
    ∀ s', Near st st' ps post s s' → ∃ r', NoWaiR s' r' ∧ RelRead st st' ps post (ENoWai (OwnBy st st' Run)) r r'
  | _, _, .none h, _, _, hn => ⟨_, .none (hn.notFirst hp' (by decide) h), .near hn⟩
  | _, _, .left h h1, _, _, hn => by
    obtain ⟨pre', rfl, rfl⟩ := hn.key hp (by decide) h
    exact ⟨_, .left h h1, .errorNear (near_of _)⟩
  | _, _, .some h hb, hr, _, hn => by
    have ih_hb := BlockR.editBy hb
    obtain ⟨pre', rfl, rfl⟩ := hn.key hp (by decide) h
    obtain ⟨r', p0, e0⟩ := ih_hb (map_ne_panic hr) close_if _ (near_of pre')
    refine ⟨_, .some h p0, e0.map fun a a' ha => ?_⟩
    intro t y l
    exact Edited.no [] [] t _ y l ha

theorem StepR.editBy : {s : Stmts} → {r : Read Block} → StepR s r → (∀ p, r ≠ .panic p) →
    ∀ s', Near st st' ps post s s' → ∃ r', StepR s' r' ∧
      (RelRead st st' ps post (Edited (OwnBy st st' Run)) r r' ∨ Passed st st' ps post r r')
  | _, _, .empty, _, _, hn => by
    obtain ⟨pre', rfl, rfl⟩ := hn.nil hp
    exact ⟨_, .empty, .inl (.near (near_of _))⟩
  | _, _, .ok h, hr, _, hn => by
    have ih_h := NodeR.editBy h
    rcases hn.inv with ⟨pre', h1, rfl⟩ | ⟨rfl, rfl⟩
    · obtain ⟨r', p0, e0⟩ := ih_h (by simp) _ h1
      rcases e0.ok_inv with ⟨s', rfl, n0⟩ | ⟨a', rfl, d0⟩ | ⟨p, rfl, d0⟩
      · rcases n0.inv with ⟨pre'', rfl, rfl⟩ | ⟨hs, rfl⟩
        · exact ⟨_, .ok p0, .inl (.near (near_of _))⟩
        · cases hs
          refine ⟨_, .ok p0, .inr ?_⟩
          rw [leftoverNodes, if_neg hp.ne_nil, leftoverNodes, if_neg hp'.ne_nil]
          exact .mk [_] (.misread .left)
      · exact ⟨_, .ok p0, .inl (.past (Edited.append_right _ d0))⟩
      · exact ⟨_, .panic p0, .inl (.panic d0.choose_spec.1 d0.choose_spec.2)⟩
    · exact step_here hp hp' (.ok h) hr
  | _, _, .error h, hr, _, hn => by
    have ih_h := NodeR.editBy h
    rcases hn.inv with ⟨pre', h1, rfl⟩ | ⟨rfl, rfl⟩
    · obtain ⟨r', p0, e0⟩ := ih_h (by simp) _ h1
      cases e0 with
      | errorNear n0 =>
        rcases n0.inv with ⟨pre'', rfl, rfl⟩ | ⟨hs, rfl⟩
        · exact ⟨_, .error p0, .inl (.near (near_of _))⟩
        · cases hs
          refine ⟨_, .error p0, .inr ?_⟩
          rw [leftoverNodes, if_neg hp.ne_nil, leftoverNodes, if_neg hp'.ne_nil]
          exact .mk [_] (.misread .left)
      | errorPast => exact ⟨_, .error p0, .inl (.past (.lost List.mem_cons_self))⟩
      | unexpected g1 g2 =>
        exact ⟨_, .error p0, .inr (.mk [] (.misread (.unexpected g1 g2)))⟩
      | panic d0 d1 => exact ⟨_, .panic p0, .inl (.panic d0 d1)⟩
    · exact step_here hp hp' (.error h) hr
  | _, _, .panic _, hr, _, _ => absurd rfl (hr _)

theorem BlockR.editBy : {close : List Keyword} → {s : Stmts} → {r : Read Block} → BlockR close s r → (∀ p, r ≠ .panic p) →
    (∀ k ∈ close, k ∈ partKeywords) → ∀ s', Near st st' ps post s s' →
    ∃ r', BlockR close s' r' ∧ RelRead st st' ps post (Edited (OwnBy st st' Run)) r r'
  | _, _, _, .last h hs, _, hc, _, hn => by
    have ih_h := StepR.editBy h
    obtain ⟨r', p0, e0 | e0⟩ := ih_h (by simp) _ hn
    case inr => simpa [Read.map] using e0.block hc hps p0 (.stop hs) (by simp [Read.map])
    rcases e0.ok_inv with ⟨s', rfl, n0⟩ | ⟨a', rfl, d0⟩ | ⟨p, rfl, d0⟩
    · exact ⟨_, .last p0 ((n0.stop hp hp' hc).1 hs), .near n0⟩
    · exact ⟨_, .last p0 hs, .past d0⟩
    · exact ⟨_, .panic p0, .panic d0.choose_spec.1 d0.choose_spec.2⟩
  | _, _, _, .more h hs hb, hr, hc, _, hn => by
    have ih_h := StepR.editBy h
    have ih_hb := BlockR.editBy hb
    obtain ⟨r', p0, e0 | e0⟩ := ih_h (by simp) _ hn
    case inr => exact e0.block hc hps p0 (.more hs hb) hr
    rcases e0.ok_inv with ⟨s', rfl, n0⟩ | ⟨a', rfl, d0⟩ | ⟨p, rfl, d0⟩
    · obtain ⟨r', p1, e1⟩ := ih_hb (map_ne_panic hr) hc _ n0
      exact ⟨_, .more p0 (fun h => hs ((n0.stop hp hp' hc).2 h)) p1, e1.map fun a a' ha => ha.append_left _⟩
    · exact ⟨_, .more p0 hs hb, .map_past (fun a => d0.append_right _) (map_ne_panic hr)⟩
    · exact ⟨_, .panic p0, .panic d0.choose_spec.1 d0.choose_spec.2⟩
  | _, _, _, .panic _, hr, _, _, _ => absurd rfl (hr _)

end

end

theorem ReadBefore.plain {ps post : List (List Token)} (hps : ∀ q ∈ ps, PlainTokens q) : ReadBefore ps post (Runs ps) :=
  fun _ hc _ h => (h.run hc ps hps).imp_right fun ⟨p, h1, h2⟩ => ⟨p, h1, hps, h2⟩

theorem BlockR.edit {st st' : List Token} {ps post : List (List Token)} (hp : PlainTokens st) (hp' : PlainTokens st')
    (hps : ∀ q ∈ ps, PlainTokens q) {close : List Keyword} {s : Stmts} {r : Read Block} (h : BlockR close s r)
    (hr : ∀ p, r ≠ .panic p) (hc : ∀ k ∈ close, k ∈ partKeywords) (s' : Stmts) (hn : Near st st' ps post s s') :
    ∃ r', BlockR close s' r' ∧ RelRead st st' ps post (Edited (OwnR st st' ps)) r r' :=
  h.editBy hp hp' (.plain hps) hr hc s' hn

end Lol
