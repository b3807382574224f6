import Verif.Parser.CountSpec
import Verif.Parser.ReadFacts
import Verif.Parser.RangeLemmas
import Verif.Parser.SizeLemmas

/-! # Counting the statements of a tree: lemmas -/

namespace Lol

/-! ## Failures are no leftover tokens -/

/-- The failure is not the error for leftover tokens. -/
def Fail.NotLeftover (f : Fail) : Prop := ∀ ts, f ≠ .error (.tooManyTokens ts)

theorem IdentFail.notLeftover {rest ts : List Token} {f : Fail} (h : IdentFail rest ts f) : f.NotLeftover := by
  cases h <;> intro ts <;> simp

theorem AccessFail.notLeftover {rest ts : List Token} {f : Fail} (h : AccessFail rest ts f) : f.NotLeftover := by
  cases h with
  | name h => exact h.notLeftover
  | slotEnd => intro ts; simp
  | slot _ _ h => exact h.notLeftover

theorem ExprFail.notLeftover {rest ts : List Token} {f : Fail} (h : ExprFail rest ts f) : f.NotLeftover := by
  induction h with
  | access _ h => exact h.notLeftover
  | unary _ _ ih | binaryLeft _ _ ih => exact ih
  | binaryRight _ _ _ _ _ _ ih => exact ih
  | nary _ _ _ _ ih => exact ih
  | _ => intro ts; simp

theorem ArgsFail.notLeftover {rest ts : List Token} {f : Fail} (h : ArgsFail rest ts f) : f.NotLeftover := by
  induction h with
  | yrEnd => intro ts; simp
  | argument _ h => exact h.notLeftover
  | later _ _ _ _ _ ih => exact ih

theorem SimpleFail.notLeftover {rest ts : List Token} {f : Fail} (h : SimpleFail rest ts f) : f.NotLeftover := by
  cases h with
  | declarationSrs _ _ h => exact h.notLeftover
  | declarationValue _ _ _ _ h => exact h.notLeftover
  | access _ h => exact h.notLeftover
  | assignmentValue _ _ h => exact h.notLeftover
  | setSlotName _ _ h => exact h.notLeftover
  | setSlotValue _ _ _ _ h => exact h.notLeftover
  | visible _ _ _ h => exact h.notLeftover
  | gimmeh _ h => exact h.notLeftover
  | foundYr _ h => exact h.notLeftover
  | callName _ h => exact h.notLeftover
  | callArguments _ _ h => exact h.notLeftover
  | expression _ _ _ h => exact h.notLeftover
  | _ => intro ts; simp

theorem IterFail.notLeftover {rest ts : List Token} {f : Fail} (h : IterFail rest ts f) : f.NotLeftover := by
  cases h with
  | name _ _ h => exact h.notLeftover
  | _ => intro ts; simp

theorem CondFail.notLeftover {rest ts : List Token} {f : Fail} (h : CondFail rest ts f) : f.NotLeftover := by
  cases h with
  | expr _ h => exact h.notLeftover
  | _ => intro ts; simp

theorem ParamsFail.notLeftover {rest ts : List Token} {f : Fail} (h : ParamsFail rest ts f) : f.NotLeftover := by
  induction h with
  | nameEnd => intro ts; simp
  | name _ h => exact h.notLeftover
  | later _ _ _ _ ih => exact ih

theorem HeadFail.notLeftover {rest ts : List Token} {f : Fail} (h : HeadFail rest ts f) : f.NotLeftover := by
  cases h with
  | iteration _ _ h => exact h.notLeftover
  | condition _ _ _ h => exact h.notLeftover
  | name _ h => exact h.notLeftover
  | params _ _ h => exact h.notLeftover
  | _ => intro ts; simp

/-! ## Counting -/

/-- How many of the nodes are no leftover tokens. -/
abbrev kinds (ns : List Node) : Nat := ns.countP fun n => !n.isLeftover

/-- How many of the nodes are leftover tokens. -/
abbrev lefts (ns : List Node) : Nat := ns.countP Node.isLeftover

/-- The first tokens of the nodes that are no errors. -/
abbrev starts (ns : List Node) : List Token := (ns.filter fun n => !n.isError).filterMap fun n => n.toks.head?

/-- 1 if the tokens are not empty. -/
def some1 (ts : List Token) : Nat := if ts = [] then 0 else 1

@[simp] theorem some1_nil : some1 [] = 0 := rfl

@[simp] theorem some1_cons (t : Token) (ts : List Token) : some1 (t :: ts) = 1 := by simp [some1]

theorem some1_le (ts : List Token) : some1 ts ≤ 1 := by cases ts <;> simp

theorem some1_pos {ts : List Token} (h : ts ≠ []) : some1 ts = 1 := by simp [some1, h]

@[simp] theorem nonEmpty_nil : nonEmpty [] = 0 := rfl

theorem nonEmpty_cons (c : List Token) (L : List (List Token)) : nonEmpty (c :: L) = some1 c + nonEmpty L := by
  cases c <;> simp [nonEmpty, some1, Nat.add_comm]

@[simp] theorem firstTokens_nil : firstTokens [] = [] := rfl

@[simp] theorem firstTokens_cons_nil (L : List (List Token)) : firstTokens ([] :: L) = firstTokens L := rfl

@[simp] theorem firstTokens_cons_cons (t : Token) (c : List Token) (L : List (List Token)) :
    firstTokens ((t :: c) :: L) = t :: firstTokens L := rfl

@[simp] theorem nonEmpty_of (l : List (List Token)) : nonEmpty (Stmts.of l).all = nonEmpty l := by cases l <;> rfl

@[simp] theorem firstTokens_of (l : List (List Token)) : firstTokens (Stmts.of l).all = firstTokens l := by
  cases l <;> rfl

theorem firstTokens_sub (c : List Token) (L : List (List Token)) : (firstTokens L).Sublist (firstTokens (c :: L)) := by
  cases c <;> simp

/-- The nodes `ns` were read from `s`, and the statements `l` and perhaps the tokens `c` of one more were left. -/
structure Tallied (ns : List Node) (c : List Token) (l : List (List Token)) (s : Stmts) : Prop where
  kinds : kinds ns + nonEmpty l ≤ nonEmpty s.all
  lefts : lefts ns + some1 c + nonEmpty l ≤ nonEmpty s.all
  starts : (starts ns ++ firstTokens l).Sublist (firstTokens s.all)

/-- The same when what is left begins with a statement that nothing was taken from. -/
structure Whole (ns : List Node) (s' s : Stmts) : Prop where
  kinds : kinds ns + nonEmpty s'.all ≤ nonEmpty s.all
  lefts : lefts ns + nonEmpty s'.all ≤ nonEmpty s.all
  starts : (starts ns ++ firstTokens s'.all).Sublist (firstTokens s.all)

/-- What is counted for an outcome. -/
def Read.Counts {α : Type} (nodes : α → List Node) (s : Stmts) : Read α → Prop
  | .ok a s' => Tallied (nodes a) s'.cur s'.later s
  | .error e s' => Tallied [.astError e] s'.cur s'.later s
  | .panic _ => True

/-- What is counted for the outcome of a part. -/
def Read.Parts {α : Type} (nodes : α → List Node) (s : Stmts) : Read α → Prop
  | .ok a s' => Whole (nodes a) s' s
  | .error e s' => Tallied [.astError e] s'.cur s'.later s
  | .panic _ => True

theorem Whole.refl (s : Stmts) : Whole [] s s := ⟨by simp [kinds], by simp [lefts], by simp [starts]⟩

theorem Whole.append {ns ns' : List Node} {s s' s'' : Stmts} (h : Whole ns s' s) (h' : Whole ns' s'' s') :
    Whole (ns ++ ns') s'' s := by
  refine ⟨?_, ?_, ?_⟩
  · have := h.kinds; have := h'.kinds; simp only [Lol.kinds, List.countP_append] at *; omega
  · have := h.lefts; have := h'.lefts; simp only [Lol.lefts, List.countP_append] at *; omega
  · simp only [Lol.starts, List.filter_append, List.filterMap_append, List.append_assoc]
    exact ((List.Sublist.refl _).append h'.starts).trans h.starts

theorem Whole.then {ns ns' : List Node} {s s' : Stmts} {c : List Token} {l : List (List Token)} (h : Whole ns s' s)
    (h' : Tallied ns' c l s') : Tallied (ns ++ ns') c l s := by
  refine ⟨?_, ?_, ?_⟩
  · have := h.kinds; have := h'.kinds; simp only [Lol.kinds, List.countP_append] at *; omega
  · have := h.lefts; have := h'.lefts; simp only [Lol.lefts, List.countP_append] at *; omega
  · simp only [Lol.starts, List.filter_append, List.filterMap_append, List.append_assoc]
    exact ((List.Sublist.refl _).append h'.starts).trans h.starts

/-- Forget nodes that were read before an error. -/
theorem Whole.fail {ns ns' : List Node} {s s' : Stmts} {c : List Token} {l : List (List Token)} (h : Whole ns s' s)
    (h' : Tallied ns' c l s') : Tallied ns' c l s := by
  refine ⟨?_, ?_, ?_⟩
  · have := h.kinds; have := h'.kinds; omega
  · have := h.lefts; have := h'.lefts; omega
  · exact h'.starts.trans ((List.sublist_append_right _ _).trans h.starts)

/-- A statement before. -/
theorem Tallied.before {ns : List Node} {c : List Token} {l L : List (List Token)} (h : Tallied ns c l (.of L))
    (st : List Token) : Tallied ns c l ⟨st, L⟩ := by
  have h1 := h.kinds; have h2 := h.lefts; have h3 := h.starts
  rw [nonEmpty_of] at h1 h2
  rw [firstTokens_of] at h3
  refine ⟨?_, ?_, h3.trans (firstTokens_sub _ _)⟩ <;> simp only [Stmts.all, nonEmpty_cons] <;> omega

theorem Whole.before {ns : List Node} {s' : Stmts} {L : List (List Token)} (h : Whole ns s' (.of L))
    (st : List Token) : Whole ns s' ⟨st, L⟩ := by
  have h1 := h.kinds; have h2 := h.lefts; have h3 := h.starts
  rw [nonEmpty_of] at h1 h2
  rw [firstTokens_of] at h3
  have h4 : nonEmpty (Stmts.all ⟨st, L⟩) = some1 st + nonEmpty L := nonEmpty_cons ..
  exact ⟨by omega, by omega, h3.trans (firstTokens_sub _ _)⟩

theorem Read.Parts.before {α : Type} {nodes : α → List Node} {L : List (List Token)} {r : Read α}
    (h : r.Parts nodes (.of L)) (st : List Token) : r.Parts nodes ⟨st, L⟩ := by
  cases r with
  | ok a s => exact Whole.before h st
  | error e s => exact Tallied.before h st
  | panic p => trivial

theorem Read.Parts.map {α β : Type} {nodes : α → List Node} {nodes' : β → List Node} {s : Stmts} {r : Read α}
    (h : r.Parts nodes s) {f : α → β} (hf : ∀ a, nodes' (f a) = nodes a) : (r.map f).Parts nodes' s := by
  cases r with
  | ok a s =>
    show Whole (nodes' (f a)) _ _
    rw [hf]; exact h
  | error e s => exact h
  | panic p => trivial

/-- Nodes before a part. -/
theorem Whole.parts {α β : Type} {nodes : α → List Node} {nodes' : β → List Node} {ns : List Node} {s s' : Stmts}
    {r : Read α} (h : Whole ns s' s) (h' : r.Parts nodes s') {f : α → β} (hf : ∀ a, nodes' (f a) = ns ++ nodes a) :
    (r.map f).Parts nodes' s := by
  cases r with
  | ok a s =>
    show Whole (nodes' (f a)) _ _
    rw [hf]; exact h.append h'
  | error e s => exact h.fail h'
  | panic p => trivial

/-- A node whose blocks were read. -/
theorem Whole.node {ns : List Node} {n : Node} {s' : Stmts} {L : List (List Token)} {t : Token} {ts : List Token}
    (h : Whole ns s' (.of L)) (h1 : n.isLeftover = false) (h2 : n.toks.head? = some t)
    (c : List Token) (hc : s'.cur ≠ []) : Tallied (n :: ns) c s'.later ⟨t :: ts, L⟩ := by
  have k1 := h.kinds; have k2 := h.lefts; have k3 := h.starts
  rw [nonEmpty_of] at k1 k2
  rw [firstTokens_of] at k3
  have k5 : nonEmpty s'.all = some1 s'.cur + nonEmpty s'.later := nonEmpty_cons ..
  rw [some1_pos hc] at k5
  have k6 : nonEmpty (Stmts.all ⟨t :: ts, L⟩) = 1 + nonEmpty L := nonEmpty_cons ..
  have k7 : Lol.kinds (n :: ns) = Lol.kinds ns + 1 := by simp [Lol.kinds, List.countP_cons, h1]
  have k8 : Lol.lefts (n :: ns) = Lol.lefts ns := by simp [Lol.lefts, List.countP_cons, h1]
  have k9 := some1_le c
  refine ⟨by omega, by omega, ?_⟩
  simp only [Stmts.all, firstTokens_cons_cons, Lol.starts]
  have k4 : (Lol.starts ns ++ firstTokens s'.later).Sublist (firstTokens L) :=
    ((List.Sublist.refl _).append (firstTokens_sub _ _)).trans k3
  cases hn : n.isError with
  | true => simp only [List.filter_cons, hn]; exact k4.trans (List.sublist_cons_self _ _)
  | false => simp only [List.filter_cons, hn]; simpa [h2] using k4

/-- A node without blocks. -/
theorem counted_one {n : Node} {L : List (List Token)} {t : Token} {ts : List Token} (h1 : n.isLeftover = false)
    (h2 : n.toks.head? = some t) (c : List Token) : Tallied [n] c L ⟨t :: ts, L⟩ := by
  have k6 : nonEmpty (Stmts.all ⟨t :: ts, L⟩) = 1 + nonEmpty L := nonEmpty_cons ..
  have k7 : Lol.kinds [n] = 1 := by simp [Lol.kinds, List.countP_cons, h1]
  have k8 : Lol.lefts [n] = 0 := by simp [Lol.lefts, List.countP_cons, h1]
  have k9 := some1_le c
  refine ⟨by omega, by omega, ?_⟩
  simp only [Stmts.all, firstTokens_cons_cons, Lol.starts]
  cases hn : n.isError with
  | true => simp [List.filter_cons, hn]
  | false => simp [List.filter_cons, hn, h2]

theorem kinds_error (e : ASTError) : kinds [.astError e] ≤ 1 := List.countP_le_length

theorem lefts_error (e : ASTError) : lefts [.astError e] ≤ 1 := List.countP_le_length

theorem starts_error (e : ASTError) : starts [.astError e] = [] := rfl

/-- An error after blocks. -/
theorem Whole.error {ns : List Node} {s' : Stmts} {L : List (List Token)} {c st : List Token}
    (h : Whole ns s' (.of L)) (e : ASTError) (hst : st ≠ []) (hc : s'.cur = [] → c = []) :
    Tallied [.astError e] c s'.later ⟨st, L⟩ := by
  have k1 := h.kinds; have k2 := h.lefts; have k3 := h.starts
  rw [nonEmpty_of] at k1 k2
  rw [firstTokens_of] at k3
  have k5 : nonEmpty s'.all = some1 s'.cur + nonEmpty s'.later := nonEmpty_cons ..
  have k6 : nonEmpty (Stmts.all ⟨st, L⟩) = 1 + nonEmpty L := by
    simp only [Stmts.all, nonEmpty_cons, some1_pos hst]
  have k7 := kinds_error e
  have k8 := lefts_error e
  have k9 : some1 c ≤ some1 s'.cur := by
    by_cases hs : s'.cur = []
    · simp [hc hs]
    · rw [some1_pos hs]; exact some1_le c
  refine ⟨by omega, by omega, ?_⟩
  rw [starts_error]
  exact (firstTokens_sub _ _).trans (((List.sublist_append_right _ _).trans k3).trans (firstTokens_sub _ _))

/-- An error in a statement, with tokens left. -/
theorem counted_error {e : ASTError} {L : List (List Token)} {c st : List Token} (hst : st ≠ [])
    (h : (∀ ts, e ≠ .tooManyTokens ts) ∨ c = []) : Tallied [.astError e] c L ⟨st, L⟩ := by
  have k6 : nonEmpty (Stmts.all ⟨st, L⟩) = 1 + nonEmpty L := by
    simp only [Stmts.all, nonEmpty_cons, some1_pos hst]
  have k7 := kinds_error e
  have k8 := lefts_error e
  have k9 := some1_le c
  refine ⟨by omega, ?_, by rw [starts_error]; exact firstTokens_sub _ _⟩
  rcases h with h | rfl
  · have : lefts [.astError e] = 0 := by
      cases e <;> first | rfl | exact absurd rfl (h _)
    omega
  · rw [some1_nil]; omega

theorem counts_fail {α : Type} {nodes : α → List Node} {f : Fail} (hf : f.NotLeftover) {L : List (List Token)}
    {c st : List Token} (hst : st ≠ []) : (f.read ⟨c, L⟩ : Read α).Counts nodes ⟨st, L⟩ := by
  cases f with
  | error e => exact counted_error hst (.inl fun ts h => hf ts (h ▸ rfl))
  | panic p => trivial

theorem parts_fail {α : Type} {nodes : α → List Node} {f : Fail} (hf : f.NotLeftover) {L : List (List Token)}
    {c st : List Token} (hst : st ≠ []) : (f.read ⟨c, L⟩ : Read α).Parts nodes ⟨st, L⟩ := by
  cases f with
  | error e => exact counted_error hst (.inl fun ts h => hf ts (h ▸ rfl))
  | panic p => trivial

/-- The failure of a part is the failure of the node. -/
theorem Read.Parts.fail {α β : Type} {nodes : α → List Node} {nodes' : β → List Node} {f : Fail} {s s' : Stmts}
    (h : (f.read s' : Read α).Parts nodes s) : (f.read s' : Read β).Counts nodes' s := by
  cases f with
  | error e => exact h
  | panic p => trivial

/-- The same after other parts. -/
theorem Whole.fail_parts {α β : Type} {nodes : α → List Node} {nodes' : β → List Node} {f : Fail} {ns : List Node}
    {s s1 s' : Stmts} (h : Whole ns s1 s) (h' : (f.read s' : Read α).Parts nodes s1) :
    (f.read s' : Read β).Counts nodes' s := by
  cases f with
  | error e => exact h.fail h'
  | panic p => trivial

theorem Read.Counts.before {α : Type} {nodes : α → List Node} {L : List (List Token)} {r : Read α}
    (h : r.Counts nodes (.of L)) (st : List Token) : r.Counts nodes ⟨st, L⟩ := by
  cases r with
  | ok a s => exact Tallied.before h st
  | error e s => exact Tallied.before h st
  | panic p => trivial

/-- Move on to the next statement. -/
theorem Tallied.take {ns : List Node} {l : List (List Token)} {s : Stmts} (h : Tallied ns [] l s) :
    Tallied ns (Stmts.of l).cur (Stmts.of l).later s := by
  cases l with
  | nil => exact h
  | cons c l =>
    have k1 := h.kinds; have k2 := h.lefts; have k3 := h.starts
    rw [nonEmpty_cons] at k1 k2
    simp only [some1_nil] at k2
    exact ⟨by simp only [Stmts.of]; omega, by simp only [Stmts.of]; omega,
      ((List.Sublist.refl _).append (firstTokens_sub _ _)).trans k3⟩

/-- The node and the leftover tokens of its statement. -/
theorem Tallied.step {ns : List Node} {c : List Token} {l : List (List Token)} {s : Stmts} (h : Tallied ns c l s) :
    Whole (ns ++ leftoverNodes c) (.of l) s := by
  have k1 := h.kinds; have k2 := h.lefts; have k3 := h.starts
  refine ⟨?_, ?_, ?_⟩
  · rw [nonEmpty_of]
    have : Lol.kinds (leftoverNodes c) = 0 := by unfold leftoverNodes; split <;> rfl
    simp only [Lol.kinds, List.countP_append] at *
    omega
  · rw [nonEmpty_of]
    have : Lol.lefts (leftoverNodes c) = some1 c := by unfold leftoverNodes some1; split <;> rfl
    simp only [Lol.lefts, List.countP_append] at *
    omega
  · rw [firstTokens_of]
    have : Lol.starts (leftoverNodes c) = [] := by unfold leftoverNodes; split <;> rfl
    simp only [Lol.starts, List.filter_append, List.filterMap_append] at *
    rw [this, List.append_nil]
    exact k3

theorem allNodes_leftover (c : List Token) : allNodes (leftoverNodes c) = leftoverNodes c := by
  unfold leftoverNodes; split <;> rfl

theorem SimpleG.first {rest ts : List Token} {node : Node} (h : SimpleG rest ts node) :
    ∃ t r, ts = t :: r ∧ node.toks.head? = some t ∧ node.isLeftover = false ∧ node.nodes = [node] := by
  cases h with
  | @assignment v r e =>
    obtain ⟨t, us, hv⟩ := List.exists_cons_of_ne_nil v.toks_ne_nil'
    exact ⟨t, us ++ r :: e.toks, by rw [hv]; rfl, by simp [Node.toks, hv], rfl, rfl⟩
  | @setSlot v h i itz e =>
    obtain ⟨t, us, hv⟩ := List.exists_cons_of_ne_nil v.toks_ne_nil'
    exact ⟨t, us ++ h :: (i.toks ++ itz :: e.toks), by rw [hv]; rfl, by simp [Node.toks, hv], rfl, rfl⟩
  | @access v =>
    obtain ⟨t, us, hv⟩ := List.exists_cons_of_ne_nil v.toks_ne_nil'
    exact ⟨t, us, hv, by simp [Node.toks, Expr.toks, ExprValue.toks, hv], rfl, rfl⟩
  | @expression e =>
    obtain ⟨t, us, hv⟩ := e.toks_ne
    exact ⟨t, us, hv, by simp [Node.toks, hv], rfl, rfl⟩
  | _ => exact ⟨_, _, rfl, rfl, rfl, rfl⟩

theorem HeadR.ne_nil {rest ts : List Token} {h : Heading} (hh : HeadR rest ts h) : ts ≠ [] := by
  cases hh <;> simp

theorem HeadR.loop_first {rest ts : List Token} {t label op cond} (hh : HeadR rest ts (.loop t label op cond)) :
    ∃ r, ts = t :: r := by
  cases hh; exact ⟨_, rfl⟩

theorem HeadR.function_first {rest ts : List Token} {t i ps} (hh : HeadR rest ts (.function t i ps)) :
    ∃ r, ts = t :: r := by
  cases hh; exact ⟨_, rfl⟩

theorem HeadR.switch_first {rest ts : List Token} {t} (hh : HeadR rest ts (.switch t)) : ∃ r, ts = t :: r := by
  cases hh; exact ⟨_, rfl⟩

theorem HeadR.conditional_first {rest ts : List Token} {t} (hh : HeadR rest ts (.conditional t)) :
    ∃ r, ts = t :: r := by
  cases hh; exact ⟨_, rfl⟩

mutual

theorem NodeR.counts {s : Stmts} {r : Read Node} : NodeR s r → r.Counts Node.nodes s
  | @NodeR.simple ts rest node later h => by
    obtain ⟨t, us, rfl, h1, h2, h3⟩ := h.first
    show Tallied node.nodes _ _ _
    rw [h3]
    exact counted_one h2 h1 _
  | @NodeR.simpleFail ts rest f later h => by
    have h0 := (NodeR.simpleFail (later := later) h).first
    exact counts_fail h.notLeftover h0
  | @NodeR.hai t version later h => (counted_one rfl rfl []).take
  | @NodeR.headFail ts rest f later h => by
    have h0 := (NodeR.headFail (later := later) h).first
    exact counts_fail h.notLeftover h0
  | @NodeR.headLeft ts rest h later h1 h2 => by
    have : Tallied [.astError (.tooManyTokens rest)] [] later ⟨ts ++ rest, later⟩ :=
      counted_error (by simp [h2]) (.inr rfl)
    exact this.take
  | .loop h1 h2 _ => by
    have ih := h2.counts
    obtain ⟨r, rfl⟩ := h1.loop_first
    exact Whole.node ih rfl rfl _ (by simp)
  | .loopPanic _ _ => trivial
  | .loopEnd h1 h2 => by
    have ih := h2.counts
    exact Whole.error ih _ h1.ne_nil fun _ => rfl
  | .loopLabelEnd h1 h2 => by
    have ih := h2.counts
    exact Whole.error ih _ h1.ne_nil fun _ => rfl
  | .loopLabel h1 h2 _ => by
    have ih := h2.counts
    exact Whole.error ih _ h1.ne_nil (by simp)
  | .function h1 h2 => by
    have ih := h2.counts
    obtain ⟨r, rfl⟩ := h1.function_first
    exact (Whole.node ih rfl rfl [] (by simp)).take
  | .functionPanic _ _ => trivial
  | .functionEnd h1 h2 => by
    have ih := h2.counts
    exact Whole.error ih _ h1.ne_nil fun _ => rfl
  | .functionLeft h1 h2 _ => by
    have ih := h2.counts
    exact (Whole.error (c := []) ih _ h1.ne_nil fun _ => rfl).take
  | .switch h1 h2 h3 _ => by
    have ih2 := h2.counts
    have ih3 := h3.counts
    obtain ⟨r, rfl⟩ := h1.switch_first
    exact (Whole.node (Whole.append ih2 ih3) rfl rfl [] (by simp)).take
  | .switchCases (f := f) h1 h2 => by
    have ih := h2.counts
    exact (Read.Parts.fail ih).before _
  | .switchDefault h1 h2 h3 => by
    have ih2 := h2.counts
    have ih3 := h3.counts
    exact (Whole.fail_parts ih2 ih3).before _
  | .switchEnd h1 h2 h3 => by
    have ih2 := h2.counts
    have ih3 := h3.counts
    exact Whole.error (Whole.append ih2 ih3) _ h1.ne_nil fun _ => rfl
  | .switchOther h1 h2 h3 _ => by
    have ih2 := h2.counts
    have ih3 := h3.counts
    exact Whole.error (Whole.append ih2 ih3) _ h1.ne_nil (by simp)
  | .switchLeft h1 h2 h3 _ _ => by
    have ih2 := h2.counts
    have ih3 := h3.counts
    exact (Whole.error (c := []) (Whole.append ih2 ih3) _ h1.ne_nil fun _ => rfl).take
  | .conditional h1 h2 h3 h4 _ => by
    have ih2 := h2.counts
    have ih3 := h3.counts
    have ih4 := h4.counts
    obtain ⟨r, rfl⟩ := h1.conditional_first
    exact Whole.node (Whole.append ih2 (Whole.append ih3 ih4)) rfl rfl _ (by simp)
  | .conditionalYes h1 h2 => by
    have ih := h2.counts
    exact (Read.Parts.fail ih).before _
  | .conditionalMaybe h1 h2 h3 => by
    have ih2 := h2.counts
    have ih3 := h3.counts
    exact (Whole.fail_parts ih2 ih3).before _
  | .conditionalNo h1 h2 h3 h4 => by
    have ih2 := h2.counts
    have ih3 := h3.counts
    have ih4 := h4.counts
    exact (Whole.fail_parts (Whole.append ih2 ih3) ih4).before _
  | .conditionalEnd h1 h2 h3 h4 => by
    have ih2 := h2.counts
    have ih3 := h3.counts
    have ih4 := h4.counts
    exact Whole.error (Whole.append ih2 (Whole.append ih3 ih4)) _ h1.ne_nil fun _ => rfl
  | .conditionalOther h1 h2 h3 h4 _ => by
    have ih2 := h2.counts
    have ih3 := h3.counts
    have ih4 := h4.counts
    exact Whole.error (Whole.append ih2 (Whole.append ih3 ih4)) _ h1.ne_nil (by simp)

theorem OmgsR.counts {s : Stmts} {r : Read (List WtfOmg)} : OmgsR s r → r.Parts nodesOmgs s
  | .nil _ => Whole.refl _
  | .valueEnd _ => counted_error (by simp) (.inr rfl)
  | .value _ h => parts_fail h.notLeftover (by simp)
  | .left _ _ _ _ => (counted_error (c := []) (by simp) (.inr rfl)).take
  | .body _ _ _ => trivial
  | .cons _ _ h1 h2 => by
    have ih1 := h1.counts
    have ih2 := h2.counts
    exact Whole.parts (Whole.before ih1 _) ih2 fun _ => rfl

theorem OmgWtfR.counts {s : Stmts} {r : Read (Option WtfOmgWtf)} : OmgWtfR s r → r.Parts nodesOmgWtf s
  | .none _ => Whole.refl _
  | .left _ _ => (counted_error (c := []) (by simp) (.inr rfl)).take
  | .some _ h => by
    have ih := h.counts
    exact (ih.before _).map fun _ => rfl

theorem YaRlyR.counts {s : Stmts} {r : Read (Option YaRly)} : YaRlyR s r → r.Parts nodesYaRly s
  | .none _ => Whole.refl _
  | .left _ _ => (counted_error (c := []) (by simp) (.inr rfl)).take
  | .some _ h => by
    have ih := h.counts
    exact (ih.before _).map fun _ => rfl

theorem MebbesR.counts {s : Stmts} {r : Read (List Mebbe)} : MebbesR s r → r.Parts nodesMebbes s
  | .nil _ => Whole.refl _
  | .valueEnd _ => counted_error (by simp) (.inr rfl)
  | .value _ h => parts_fail h.notLeftover (by simp)
  | .left _ _ _ _ => (counted_error (c := []) (by simp) (.inr rfl)).take
  | .body _ _ _ => trivial
  | .cons _ _ h1 h2 => by
    have ih1 := h1.counts
    have ih2 := h2.counts
    exact Whole.parts (Whole.before ih1 _) ih2 fun _ => rfl

theorem NoWaiR.counts {s : Stmts} {r : Read (Option NoWai)} : NoWaiR s r → r.Parts nodesNoWai s
  | .none _ => Whole.refl _
  | .left _ _ => (counted_error (c := []) (by simp) (.inr rfl)).take
  | .some _ h => by
    have ih := h.counts
    exact (ih.before _).map fun _ => rfl

theorem StepR.counts {s : Stmts} {r : Read Block} : StepR s r → r.Parts allNodes s
  | .empty => (Whole.refl _).before _
  | @StepR.ok s node rest l h => by
    have ih := h.counts
    show Whole (allNodes (node :: leftoverNodes rest)) _ _
    simp only [allNodes, allNodes_leftover]
    exact Tallied.step ih
  | @StepR.error s e rest l h => by
    have ih := h.counts
    show Whole (allNodes (.astError e :: leftoverNodes rest)) _ _
    simp only [allNodes, allNodes_leftover]
    exact Tallied.step ih
  | .panic _ => trivial

theorem BlockR.counts {close : List Keyword} {s : Stmts} {r : Read Block} : BlockR close s r → r.Parts allNodes s
  | .last h _ => h.counts
  | @BlockR.more close s nodes s' r h1 _ h2 => by
    have ih1 := h1.counts
    have ih2 := h2.counts
    exact Whole.parts ih1 ih2 fun _ => allNodes_append ..
  | .panic _ => trivial

end

/-! ## Programs without errors -/

/-- The statements of the nodes, those inside them not counted. -/
abbrev own (ns : List Node) : Nat := (ns.map Node.ownStatements).sum

theorem nonEmpty_append (a b : List (List Token)) : nonEmpty (a ++ b) = nonEmpty a + nonEmpty b :=
  List.countP_append ..

theorem own_append (a b : List Node) : own (a ++ b) = own a + own b := by simp [own]

theorem own_cons (a : Node) (b : List Node) : own (a :: b) = a.ownStatements + own b := by simp [own]

theorem SimpleG.own {rest ts : List Token} {node : Node} (h : SimpleG rest ts node) : node.ownStatements = 1 := by
  cases h <;> rfl

mutual

theorem NodeG.own {L : List (List Token)} {node : Node} : NodeG L node → nonEmpty L = own node.nodes
  | @NodeG.simple ts node h => by
    obtain ⟨t, us, rfl, _, _, h3⟩ := h.first
    rw [h3, own_cons, h.own]
    simp [nonEmpty_cons, Lol.own]
  | .hai h => by simp [nonEmpty_cons, Node.nodes, Lol.own, Node.ownStatements]
  | .loop _ _ _ _ h _ _ => by
    have ih := h.own
    simp only [Node.nodes, own_cons, Node.ownStatements, nonEmpty_cons, nonEmpty_append, some1_cons, nonEmpty_nil]
    omega
  | .function _ _ _ h _ => by
    have ih := h.own
    simp only [Node.nodes, own_cons, Node.ownStatements, nonEmpty_cons, nonEmpty_append, some1_cons, some1_nil,
      nonEmpty_nil]
    omega
  | .switch _ _ h3 h4 _ => by
    have ih1 := h3.own
    have ih2 := h4.own
    simp only [Node.nodes, own_cons, own_append, Node.ownStatements, nonEmpty_cons, nonEmpty_append, some1_cons,
      some1_nil, nonEmpty_nil]
    omega
  | .conditional _ _ h3 h4 h5 _ => by
    have ih1 := h3.own
    have ih2 := h4.own
    have ih3 := h5.own
    simp only [Node.nodes, own_cons, own_append, Node.ownStatements, nonEmpty_cons, nonEmpty_append, some1_cons,
      nonEmpty_nil]
    omega

theorem OmgsG.own {L : List (List Token)} {omgs : List WtfOmg} :
    OmgsG L omgs → nonEmpty L = omgs.length + own (nodesOmgs omgs)
  | .nil => rfl
  | .cons _ _ h3 h4 => by
    have ih1 := h3.own
    have ih2 := h4.own
    simp only [nodesOmgs, own_append, nonEmpty_cons, nonEmpty_append, some1_cons, List.length_cons]
    omega

theorem OmgWtfG.own {L : List (List Token)} {d : Option WtfOmgWtf} :
    OmgWtfG L d → nonEmpty L = d.toList.length + own (nodesOmgWtf d)
  | .none => rfl
  | .some _ h => by
    have ih := h.own
    simp only [nodesOmgWtf, nonEmpty_cons, some1_cons, Option.toList, List.length_cons, List.length_nil]
    omega

theorem YaRlyG.own {L : List (List Token)} {d : Option YaRly} :
    YaRlyG L d → nonEmpty L = d.toList.length + own (nodesYaRly d)
  | .none => rfl
  | .some _ h => by
    have ih := h.own
    simp only [nodesYaRly, nonEmpty_cons, some1_cons, Option.toList, List.length_cons, List.length_nil]
    omega

theorem MebbesG.own {L : List (List Token)} {mebbes : List Mebbe} :
    MebbesG L mebbes → nonEmpty L = mebbes.length + own (nodesMebbes mebbes)
  | .nil => rfl
  | .cons _ _ h3 h4 => by
    have ih1 := h3.own
    have ih2 := h4.own
    simp only [nodesMebbes, own_append, nonEmpty_cons, nonEmpty_append, some1_cons, List.length_cons]
    omega

theorem NoWaiG.own {L : List (List Token)} {d : Option NoWai} :
    NoWaiG L d → nonEmpty L = d.toList.length + own (nodesNoWai d)
  | .none => rfl
  | .some _ h => by
    have ih := h.own
    simp only [nodesNoWai, nonEmpty_cons, some1_cons, Option.toList, List.length_cons, List.length_nil]
    omega

theorem BlockG.own {L : List (List Token)} {nodes : List Node} : BlockG L nodes → nonEmpty L = own (allNodes nodes)
  | .nodes h1 h2 => by
    have ih1 := h1.own
    have ih2 := h2.own
    simp only [allNodes, own_append, nonEmpty_append]
    omega
  | .skip h => by
    have ih := h.own
    simp only [nonEmpty_cons, some1_nil]
    omega

theorem NodesG.own {L : List (List Token)} {nodes : List Node} : NodesG L nodes → nonEmpty L = own (allNodes nodes)
  | .nil => rfl
  | .cons h1 h2 => by
    have ih1 := h1.own
    have ih2 := h2.own
    simp only [allNodes, own_append, nonEmpty_append]
    omega

end

/-! ## Statements that give two nodes each -/

/-- `GTFO GTFO` in every statement. -/
theorem gtfos_read : (L : List (List Token)) → L ≠ [] → (∀ st ∈ L, ∃ a b, st = [a, b] ∧ a.Is .GTFO) →
    ∃ nodes, BlockR [] (.of L) (.ok nodes ⟨[], []⟩) ∧ kinds (allNodes nodes) = L.length ∧
      lefts (allNodes nodes) = L.length
  | [], h, _ => absurd rfl h
  | [st], _, h => by
    obtain ⟨a, b, rfl, ha⟩ := h st (by simp)
    exact ⟨_, .last (.ok (.simple (ts := [a]) (rest := [b]) (later := []) (.gtfo ha))) (.inl rfl), rfl, rfl⟩
  | st :: st' :: L, _, h => by
    obtain ⟨a, b, rfl, ha⟩ := h st (by simp)
    obtain ⟨a', b', rfl, ha'⟩ := h st' (by simp)
    obtain ⟨nodes, h1, h2, h3⟩ := gtfos_read ([a', b'] :: L) (by simp) fun s hs => h s (List.mem_cons_of_mem _ hs)
    refine ⟨_, .more (.ok (.simple (ts := [a]) (rest := [b]) (later := [a', b'] :: L) (.gtfo ha))) ?_ h1, ?_, ?_⟩
    · rintro (h | ⟨_, _, _, _, h, _⟩) <;> simp [Stmts.of] at h
    · rw [allNodes_append]
      simp only [kinds, List.countP_append] at *
      rw [h2]
      simp [allNodes, Node.nodes, leftoverNodes, Node.isLeftover, Nat.add_comm]
    · rw [allNodes_append]
      simp only [lefts, List.countP_append] at *
      rw [h3]
      simp [allNodes, Node.nodes, leftoverNodes, Node.isLeftover, Nat.add_comm]

end Lol
