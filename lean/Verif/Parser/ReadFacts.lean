import Verif.Parser.ReadComplete
import Verif.Parser.TreeSpec

/-! # Consequences of soundness and completeness of reading -/

namespace Lol

theorem Read.res_inj {α : Type} {r r' : Read α} (h : r.res = r'.res) : r = r' := by
  cases r <;> cases r' <;> simp_all [Read.res]

theorem Fail.read_ne_ok {α : Type} {f : Fail} {s s' : Stmts} {a : α} : f.read s ≠ .ok a s' := by
  cases f <;> simp [Fail.read]

/-! ## Reading is a function -/

theorem ProgC.det {α : Type} {p : Nat → Prog α} {s : Stmts} {r r' : Read α} (h : ProgC p s r) (h' : ProgC p s r') :
    r = r' := by
  obtain ⟨n, h⟩ := h
  obtain ⟨m, h'⟩ := h'
  exact Read.res_inj ((h (max n m) (by omega)).symm.trans (h' (max n m) (by omega)))

theorem recognises_exists (close : List Keyword) : ∃ stop, Recognises stop close := by
  classical
  exact ⟨fun t => decide (∃ k ∈ close, t.Is k), fun t => by simp⟩

theorem BlockR.det {close : List Keyword} {s : Stmts} {r r' : Read Block} (h : BlockR close s r)
    (h' : BlockR close s r') : r = r' := by
  obtain ⟨stop, hs⟩ := recognises_exists close
  exact (h.complete stop hs).det (h'.complete stop hs)

theorem NodeR.det {s : Stmts} {r r' : Read Node} (h : NodeR s r) (h' : NodeR s r') : r = r' := by
  obtain ⟨t, cur, later, rfl, n, h⟩ := h.complete
  obtain ⟨t', cur', later', he, m, h'⟩ := h'.complete
  cases he
  exact Read.res_inj ((h (max n m) (by omega)).symm.trans (h' (max n m) (by omega)))

theorem NodeR.first {s : Stmts} {r : Read Node} (h : NodeR s r) : s.cur ≠ [] := by
  obtain ⟨t, cur, later, rfl, -⟩ := h.complete
  simp

theorem BlockR.total (close : List Keyword) (s : Stmts) : ∃ r, BlockR close s r := by
  obtain ⟨stop, hs⟩ := recognises_exists close
  have h1 := parseBlock_read (s.size + 2) stop close s hs
  have h2 := exec_enough (stop := stop) (Nat.le_refl (s.size + 2))
  cases h : exec (parseBlock (s.size + 2) stop) s with
  | ok a s' => rw [h] at h1; exact ⟨_, h1⟩
  | err e s' => rw [h] at h1; exact ⟨_, h1⟩
  | panic p => rw [h] at h1; exact ⟨_, h1⟩
  | outOfFuel => exact absurd h h2

theorem StepR.total (s : Stmts) : ∃ r, StepR s r := by
  obtain ⟨r, h⟩ := BlockR.total [] s
  cases h with
  | last h _ => exact ⟨_, h⟩
  | more h _ _ => exact ⟨_, h⟩
  | panic h => exact ⟨_, h⟩

theorem StepR.det {s : Stmts} {r r' : Read Block} (h : StepR s r) (h' : StepR s r') : r = r' := by
  cases h with
  | empty =>
    generalize hs : Stmts.mk _ _ = s at h'
    cases h' with
    | empty => cases hs; rfl
    | ok h' => exact absurd (by rw [← hs]) h'.first
    | error h' => exact absurd (by rw [← hs]) h'.first
    | panic h' => exact absurd (by rw [← hs]) h'.first
  | ok h =>
    cases h' with
    | empty => exact absurd rfl h.first
    | ok h' => cases h.det h'; rfl
    | error h' => cases h.det h'
    | panic h' => cases h.det h'
  | error h =>
    cases h' with
    | empty => exact absurd rfl h.first
    | ok h' => cases h.det h'
    | error h' => cases h.det h'; rfl
    | panic h' => cases h.det h'
  | panic h =>
    cases h' with
    | empty => exact absurd rfl h.first
    | ok h' => cases h.det h'
    | error h' => cases h.det h'
    | panic h' => cases h.det h'; rfl

/-! ## The whole program -/

theorem parseStmts_ok_iff {s : Stmts} {nodes : Block} :
    parseStmts s = .ok nodes ↔ ∃ s', BlockR [] s (.ok nodes s') := by
  constructor
  · intro h
    have h1 := parseBlock_read (s.size + 2) stopRoot [] s recognises_root
    unfold parseStmts at h
    cases he : exec (parseBlock (s.size + 2) stopRoot) s with
    | ok a s' => rw [he] at h1 h; cases h; exact ⟨_, h1⟩
    | err e s' => exact absurd he (parseBlock_no_err _ _ _ _ _)
    | panic p => rw [he] at h; cases h
    | outOfFuel => rw [he] at h; cases h
  · rintro ⟨s', h⟩
    obtain ⟨n0, h⟩ := h.complete _ recognises_root
    have h := h (n0 + s.size + 2) (by omega)
    dsimp only at h
    rw [← parseStmts_eq (n := n0 + s.size + 2) (by omega), h]
    rfl

theorem parseStmts_panic_iff {s : Stmts} {p : PanicSite} : parseStmts s = .panic p ↔ BlockR [] s (.panic p) := by
  constructor
  · intro h
    have h1 := parseBlock_read (s.size + 2) stopRoot [] s recognises_root
    unfold parseStmts at h
    cases he : exec (parseBlock (s.size + 2) stopRoot) s with
    | ok a s' => rw [he] at h1 h; cases h
    | err e s' => exact absurd he (parseBlock_no_err _ _ _ _ _)
    | panic p => rw [he] at h1 h; cases h; exact h1
    | outOfFuel => rw [he] at h; cases h
  · intro h
    obtain ⟨n0, h⟩ := h.complete _ recognises_root
    have h := h (n0 + s.size + 2) (by omega)
    dsimp only at h
    rw [← parseStmts_eq (n := n0 + s.size + 2) (by omega), h]
    rfl

theorem stop_root {s : Stmts} : Stop [] s ↔ s.cur = [] := by
  simp [Stop]

/-- `parse` from a reading: the outcome. -/
def Read.out {α : Type} : Read α → Out α
  | .ok a _ => .ok a
  | .error _ _ => .outOfFuel
  | .panic p => .panic p

theorem parseStmts_of_read {s : Stmts} {r : Read Block} (h : BlockR [] s r) : parseStmts s = r.out := by
  cases r with
  | ok a s' => exact parseStmts_ok_iff.2 ⟨_, h⟩
  | error e s' => exact absurd rfl (h.noError _ _)
  | panic p => exact parseStmts_panic_iff.2 h

theorem parseStmts_step {s s' : Stmts} {nodes : Block} (h : StepR s (.ok nodes s')) :
    parseStmts s = (if s'.cur = [] then .ok [] else parseStmts s').bind fun more => .ok (nodes ++ more) := by
  by_cases hs : s'.cur = []
  · rw [parseStmts_of_read (.last h (stop_root.2 hs)), if_pos hs]
    simp [Read.out, Out.bind]
  · obtain ⟨r, hr⟩ := BlockR.total [] s'
    rw [if_neg hs, parseStmts_of_read (.more h (mt stop_root.1 hs) hr), parseStmts_of_read hr]
    cases r <;> rfl

theorem parseStmts_step_panic {s : Stmts} {p : PanicSite} (h : StepR s (.panic p)) : parseStmts s = .panic p :=
  parseStmts_of_read (.panic h)

theorem StepR.state {s : Stmts} {nodes : Block} {s' : Stmts} (h : StepR s (.ok nodes s')) : ∃ l, s' = .of l := by
  cases h <;> exact ⟨_, rfl⟩

theorem parseStmts_node {s : Stmts} {node : Node} {rest : List Token} {l : List (List Token)}
    (h : NodeR s (.ok node ⟨rest, l⟩)) :
    parseStmts s = (parseRest l).bind fun more => .ok (node :: leftoverNodes rest ++ more) :=
  parseStmts_step (.ok h)

theorem parseStmts_node_error {s : Stmts} {e : ASTError} {rest : List Token} {l : List (List Token)}
    (h : NodeR s (.error e ⟨rest, l⟩)) :
    parseStmts s = (parseRest l).bind fun more => .ok (.astError e :: leftoverNodes rest ++ more) :=
  parseStmts_step (.error h)

theorem Reaches.parse {start s : Stmts} {nodes : Block} (h : Reaches start nodes s) :
    parseStmts start = (parseStmts s).bind fun more => .ok (nodes ++ more) := by
  induction h with
  | start => cases parseStmts start <;> rfl
  | step _ h2 h3 ih =>
    rw [ih, parseStmts_step h2, if_neg h3]
    rename_i s' _
    cases parseStmts s' <;> simp [Out.bind]

/-! ## Later statements -/

/-- Every point from which `s'` can be read on, except at an empty statement at the end, is one from which `s` can be
read on. -/
def Stmts.Le (s' s : Stmts) : Prop := ∀ l, l ≠ [[]] → l <:+ s'.all → l <:+ s.all

theorem Stmts.Le.refl (s : Stmts) : s.Le s := fun _ _ h => h

theorem Stmts.Le.trans {a b c : Stmts} (h1 : a.Le b) (h2 : b.Le c) : a.Le c :=
  fun _ hne h => h2 _ hne (h1 _ hne h)

theorem Stmts.le_later (s : Stmts) : (Stmts.of s.later).Le s := by
  intro l' hne h
  obtain ⟨cur, l⟩ := s
  cases l with
  | nil =>
    rcases List.suffix_cons_iff.1 h with h | h
    · exact absurd h hne
    · have h : l' <:+ [] := h
      rw [List.suffix_nil.1 h]
      exact List.nil_suffix
  | cons c l => exact h.trans (List.suffix_cons _ _)

theorem Stmts.le_of (l : List (List Token)) (ts : List Token) : (Stmts.of l).Le ⟨ts, l⟩ := Stmts.le_later ⟨ts, l⟩

/-- What is left is later in the program, one statement further on or more. -/
def Read.NextLe {α : Type} (s : Stmts) : Read α → Prop
  | .ok _ s' => (Stmts.of s'.later).Le s
  | .error _ s' => (Stmts.of s'.later).Le s
  | .panic _ => True

/-- The same for the parts of a construct, where reading stops between two statements. -/
def Read.PartLe {α : Type} (s : Stmts) : Read α → Prop
  | .ok _ s' => s'.Le s
  | .error _ s' => (Stmts.of s'.later).Le s
  | .panic _ => True

theorem Read.PartLe.map {α β : Type} {s : Stmts} {r : Read α} {f : α → β} (h : r.PartLe s) : (r.map f).PartLe s := by
  cases r <;> exact h

theorem Read.PartLe.trans {α : Type} {s s' : Stmts} {r : Read α} (h : r.PartLe s') (hs : s'.Le s) : r.PartLe s := by
  cases r with
  | ok a s'' => exact Stmts.Le.trans h hs
  | error e s'' => exact Stmts.Le.trans h hs
  | panic p => trivial

theorem Read.PartLe.next {α : Type} {s s' : Stmts} {r : Read α} (h : r.PartLe s') (hs : s'.Le s) :
    r.NextLe s := by
  cases r with
  | ok a s'' => exact ((Stmts.le_later _).trans h).trans hs
  | error e s'' => exact Stmts.Le.trans h hs
  | panic p => trivial

theorem nextLe_read {α : Type} {f : Fail} {s s' : Stmts} (h : (Stmts.of s'.later).Le s) :
    (f.read s' : Read α).NextLe s := by
  cases f with
  | error e => exact h
  | panic p => trivial

theorem partLe_read {α : Type} {f : Fail} {s s' : Stmts} (h : (Stmts.of s'.later).Le s) :
    (f.read s' : Read α).PartLe s := by
  cases f with
  | error e => exact h
  | panic p => trivial

theorem nextLe_of_partLe_read {α β : Type} {f : Fail} {s s1 s' : Stmts} (h : (f.read s' : Read α).PartLe s1)
    (hs : s1.Le s) : (f.read s' : Read β).NextLe s := by
  cases f with
  | error e => exact Stmts.Le.trans h hs
  | panic p => trivial

theorem le_of_of (l : List (List Token)) : (Stmts.of (Stmts.of l).later).Le (.of l) := Stmts.le_later _

mutual

theorem NodeR.le {s : Stmts} {r : Read Node} : NodeR s r → r.NextLe s
  | .simple _ => Stmts.le_of _ _
  | .simpleFail _ => nextLe_read (Stmts.le_of _ _)
  | .hai _ => (le_of_of _).trans (Stmts.le_of _ _)
  | .headFail _ => nextLe_read (Stmts.le_of _ _)
  | .headLeft _ _ => (le_of_of _).trans (Stmts.le_of _ _)
  | .loop _ h _ => ((Stmts.le_of _ _).trans h.le).trans (Stmts.le_of _ _)
  | .loopPanic _ _ => trivial
  | .loopEnd _ h => ((Stmts.le_of _ _).trans h.le).trans (Stmts.le_of _ _)
  | .loopLabelEnd _ h => ((Stmts.le_of _ _).trans h.le).trans (Stmts.le_of _ _)
  | .loopLabel _ h _ => ((Stmts.le_of _ _).trans h.le).trans (Stmts.le_of _ _)
  | .function _ h => (((le_of_of _).trans (Stmts.le_of _ _)).trans h.le).trans (Stmts.le_of _ _)
  | .functionPanic _ _ => trivial
  | .functionEnd _ h => ((Stmts.le_of _ _).trans h.le).trans (Stmts.le_of _ _)
  | .functionLeft _ h _ => (((le_of_of _).trans (Stmts.le_of _ _)).trans h.le).trans (Stmts.le_of _ _)
  | .switch _ h1 h2 _ =>
    ((((le_of_of _).trans (Stmts.le_of _ _)).trans h2.le).trans h1.le).trans (Stmts.le_of _ _)
  | .switchCases _ h => nextLe_of_partLe_read h.le (Stmts.le_of _ _)
  | .switchDefault _ h1 h2 => nextLe_of_partLe_read h2.le (Stmts.Le.trans h1.le (Stmts.le_of _ _))
  | .switchEnd _ h1 h2 => (((Stmts.le_of _ _).trans h2.le).trans h1.le).trans (Stmts.le_of _ _)
  | .switchOther _ h1 h2 _ => (((Stmts.le_of _ _).trans h2.le).trans h1.le).trans (Stmts.le_of _ _)
  | .switchLeft _ h1 h2 _ _ =>
    ((((le_of_of _).trans (Stmts.le_of _ _)).trans h2.le).trans h1.le).trans (Stmts.le_of _ _)
  | .conditional _ h1 h2 h3 _ =>
    ((((Stmts.le_of _ _).trans h3.le).trans h2.le).trans h1.le).trans (Stmts.le_of _ _)
  | .conditionalYes _ h => nextLe_of_partLe_read h.le (Stmts.le_of _ _)
  | .conditionalMaybe _ h1 h2 => nextLe_of_partLe_read h2.le (Stmts.Le.trans h1.le (Stmts.le_of _ _))
  | .conditionalNo _ h1 h2 h3 =>
    nextLe_of_partLe_read h3.le (Stmts.Le.trans (Stmts.Le.trans h2.le h1.le) (Stmts.le_of _ _))
  | .conditionalEnd _ h1 h2 h3 =>
    ((((Stmts.le_of _ _).trans h3.le).trans h2.le).trans h1.le).trans (Stmts.le_of _ _)
  | .conditionalOther _ h1 h2 h3 _ =>
    ((((Stmts.le_of _ _).trans h3.le).trans h2.le).trans h1.le).trans (Stmts.le_of _ _)

theorem OmgsR.le {s : Stmts} {r : Read (List WtfOmg)} : OmgsR s r → r.PartLe s
  | .nil _ => Stmts.Le.refl _
  | .valueEnd _ => Stmts.le_of _ _
  | .value _ _ => partLe_read (Stmts.le_of _ _)
  | .left _ _ _ _ => (le_of_of _).trans (Stmts.le_of _ _)
  | .body _ _ _ => trivial
  | .cons _ _ h1 h2 => (h2.le.trans (Stmts.Le.trans h1.le (Stmts.le_of _ _))).map

theorem OmgWtfR.le {s : Stmts} {r : Read (Option WtfOmgWtf)} : OmgWtfR s r → r.PartLe s
  | .none _ => Stmts.Le.refl _
  | .left _ _ => (le_of_of _).trans (Stmts.le_of _ _)
  | .some _ h => (h.le.trans (Stmts.le_of _ _)).map

theorem YaRlyR.le {s : Stmts} {r : Read (Option YaRly)} : YaRlyR s r → r.PartLe s
  | .none _ => Stmts.Le.refl _
  | .left _ _ => (le_of_of _).trans (Stmts.le_of _ _)
  | .some _ h => (h.le.trans (Stmts.le_of _ _)).map

theorem MebbesR.le {s : Stmts} {r : Read (List Mebbe)} : MebbesR s r → r.PartLe s
  | .nil _ => Stmts.Le.refl _
  | .valueEnd _ => Stmts.le_of _ _
  | .value _ _ => partLe_read (Stmts.le_of _ _)
  | .left _ _ _ _ => (le_of_of _).trans (Stmts.le_of _ _)
  | .body _ _ _ => trivial
  | .cons _ _ h1 h2 => (h2.le.trans (Stmts.Le.trans h1.le (Stmts.le_of _ _))).map

theorem NoWaiR.le {s : Stmts} {r : Read (Option NoWai)} : NoWaiR s r → r.PartLe s
  | .none _ => Stmts.Le.refl _
  | .left _ _ => (le_of_of _).trans (Stmts.le_of _ _)
  | .some _ h => (h.le.trans (Stmts.le_of _ _)).map

theorem StepR.le {s : Stmts} {r : Read Block} : StepR s r → r.PartLe s
  | .empty => Stmts.le_of _ _
  | .ok h => h.le
  | .error h => h.le
  | .panic _ => trivial

theorem BlockR.le {close : List Keyword} {s : Stmts} {r : Read Block} : BlockR close s r → r.PartLe s
  | .last h _ => h.le
  | .more h1 _ h2 => (h2.le.trans h1.le).map
  | .panic _ => trivial

end

/-! ## Nodes and blocks anywhere in the tree -/

/-- The node has been read from a point of `s`. -/
def ReadIn (s : Stmts) (node : Node) : Prop :=
  ∃ ts later s', ts ≠ [] ∧ ts :: later <:+ s.all ∧ NodeR ⟨ts, later⟩ (.ok node s')

theorem ReadIn.mono {s' s : Stmts} {node : Node} (h : ReadIn s' node) (hs : s'.Le s) : ReadIn s node := by
  obtain ⟨ts, later, s1, h1, h2, h3⟩ := h
  exact ⟨ts, later, s1, h1, hs _ (by simpa using fun h => absurd h h1) h2, h3⟩

theorem NodeR.readIn {s s' : Stmts} {node : Node} (h : NodeR s (.ok node s')) : ReadIn s node :=
  ⟨s.cur, s.later, s', h.first, List.suffix_refl _, h⟩

/-- An error node for an error at a point of `s`, or for the tokens left in a statement. -/
def ErrorNode (s : Stmts) (node : Node) : Prop :=
  ∃ e, node = .astError e ∧ ((∃ c, e = .tooManyTokens c) ∨
    ∃ ts later s', ts ≠ [] ∧ ts :: later <:+ s.all ∧ NodeR ⟨ts, later⟩ (.error e s'))

theorem ErrorNode.mono {s' s : Stmts} {node : Node} (h : ErrorNode s' node) (hs : s'.Le s) : ErrorNode s node := by
  obtain ⟨e, rfl, h | ⟨ts, later, s1, h1, h2, h3⟩⟩ := h
  · exact ⟨e, rfl, .inl h⟩
  · exact ⟨e, rfl, .inr ⟨ts, later, s1, h1, hs _ (by simpa using fun h => absurd h h1) h2, h3⟩⟩

theorem NodeR.errorNode {s s' : Stmts} {e : ASTError} (h : NodeR s (.error e s')) : ErrorNode s (.astError e) :=
  ⟨e, rfl, .inr ⟨s.cur, s.later, s', h.first, List.suffix_refl _, h⟩⟩

theorem mem_leftoverNodes {c : List Token} {node : Node} (h : node ∈ leftoverNodes c) :
    node = .astError (.tooManyTokens c) := by
  unfold leftoverNodes at h
  split at h
  · cases h
  · simpa using h

theorem StepR.mem {s : Stmts} {r : Read Block} (h : StepR s r) : ∀ nodes s', r = .ok nodes s' →
    ∀ node ∈ nodes, ErrorNode s node ∨ ReadIn s node := by
  intro nodes s' hr node hn
  cases h with
  | empty => cases hr; cases hn
  | ok h =>
    cases hr
    rcases List.mem_cons.1 hn with rfl | hn
    · exact .inr h.readIn
    · exact .inl ⟨_, mem_leftoverNodes hn, .inl ⟨_, rfl⟩⟩
  | error h =>
    cases hr
    rcases List.mem_cons.1 hn with rfl | hn
    · exact .inl h.errorNode
    · exact .inl ⟨_, mem_leftoverNodes hn, .inl ⟨_, rfl⟩⟩
  | panic h => cases hr

theorem BlockR.mem {close : List Keyword} {s : Stmts} {r : Read Block} : BlockR close s r → ∀ nodes s', r = .ok nodes s' →
    ∀ node ∈ nodes, ErrorNode s node ∨ ReadIn s node
  | .last h _ => h.mem
  | .more (r := r) (nodes := first) h1 _ h2 => by
    have ih := h2.mem
    have hle : (Read.ok first _ : Read Block).PartLe _ := h1.le
    intro nodes s' hr node hn
    cases r with
    | ok a s1 =>
      cases hr
      rcases List.mem_append.1 hn with hn | hn
      · exact h1.mem _ _ rfl node hn
      · rcases ih _ _ rfl node hn with h | h
        · exact .inl (h.mono hle)
        · exact .inr (h.mono hle)
    | error => cases hr
    | panic => cases hr
  | .panic _ => by intro _ _ hr; cases hr

/-- The block has been read from a point of `s`, up to a closing keyword. -/
def BlockReadIn (s : Stmts) (b : Block) : Prop :=
  ∃ close l s', (Stmts.of l).Le s ∧ BlockR close (.of l) (.ok b s') ∧ s'.cur ≠ [] ∧
    close ∈ [closeLoop, closeFunction, closeSwitch, closeIf]

theorem BlockReadIn.mono {s' s : Stmts} {b : Block} (h : BlockReadIn s' b) (hs : s'.Le s) : BlockReadIn s b := by
  obtain ⟨close, l, s1, h1, h2⟩ := h
  exact ⟨close, l, s1, h1.trans hs, h2⟩

theorem blockReadIn {close : List Keyword} {ts : List Token} {l : List (List Token)} {b : Block} {s' : Stmts}
    (h : BlockR close (.of l) (.ok b s')) (hne : s'.cur ≠ [])
    (hc : close ∈ [closeLoop, closeFunction, closeSwitch, closeIf] := by simp) : BlockReadIn ⟨ts, l⟩ b :=
  ⟨close, l, s', Stmts.le_of _ _, h, hne, hc⟩

theorem OmgsR.empty {s s' : Stmts} {omgs : List WtfOmg} (h : OmgsR s (.ok omgs s')) (hs : s.cur = []) : s' = s := by
  generalize hr : Read.ok omgs s' = r at h
  cases h with
  | nil _ => cases hr; rfl
  | _ => cases hs

theorem MebbesR.empty {s s' : Stmts} {mebbes : List Mebbe} (h : MebbesR s (.ok mebbes s')) (hs : s.cur = []) :
    s' = s := by
  generalize hr : Read.ok mebbes s' = r at h
  cases h with
  | nil _ => cases hr; rfl
  | _ => cases hs

theorem OmgWtfR.empty {s s' : Stmts} {o : Option WtfOmgWtf} (h : OmgWtfR s (.ok o s')) (hs : s.cur = []) :
    s' = s := by
  generalize hr : Read.ok o s' = r at h
  cases h with
  | none _ => cases hr; rfl
  | _ => cases hs

theorem NoWaiR.empty {s s' : Stmts} {o : Option NoWai} (h : NoWaiR s (.ok o s')) (hs : s.cur = []) :
    s' = s := by
  generalize hr : Read.ok o s' = r at h
  cases h with
  | none _ => cases hr; rfl
  | _ => cases hs

theorem OmgsR.blocks {s : Stmts} {r : Read (List WtfOmg)} : OmgsR s r → ∀ omgs s', r = .ok omgs s' → s'.cur ≠ [] →
    ∀ t e b, WtfOmg.mk t e b ∈ omgs → BlockReadIn s b
  | .nil _ => by rintro _ _ ⟨⟩ _ _ _ _ h; cases h
  | .valueEnd _ => by rintro _ _ ⟨⟩
  | .value (f := f) _ _ => by cases f <;> rintro _ _ ⟨⟩
  | .left _ _ _ _ => by rintro _ _ ⟨⟩
  | .body _ _ _ => by rintro _ _ ⟨⟩
  | .cons (r := r) (s := s1) _ _ h1 h2 => by
    have ih := h2.blocks
    intro omgs s' hr hne t e b hm
    cases r with
    | ok a s2 =>
      cases hr
      rcases List.mem_cons.1 hm with hm | hm
      · cases hm
        exact blockReadIn h1 fun h => hne (by rw [h2.empty h, h])
      · exact (ih _ _ rfl hne t e b hm).mono (Stmts.Le.trans h1.le (Stmts.le_of _ _))
    | error => cases hr
    | panic => cases hr

theorem MebbesR.blocks {s : Stmts} {r : Read (List Mebbe)} : MebbesR s r → ∀ omgs s', r = .ok omgs s' → s'.cur ≠ [] →
    ∀ t e b, Mebbe.mk t e b ∈ omgs → BlockReadIn s b
  | .nil _ => by rintro _ _ ⟨⟩ _ _ _ _ h; cases h
  | .valueEnd _ => by rintro _ _ ⟨⟩
  | .value (f := f) _ _ => by cases f <;> rintro _ _ ⟨⟩
  | .left _ _ _ _ => by rintro _ _ ⟨⟩
  | .body _ _ _ => by rintro _ _ ⟨⟩
  | .cons (r := r) (s := s1) _ _ h1 h2 => by
    have ih := h2.blocks
    intro omgs s' hr hne t e b hm
    cases r with
    | ok a s2 =>
      cases hr
      rcases List.mem_cons.1 hm with hm | hm
      · cases hm
        exact blockReadIn h1 fun h => hne (by rw [h2.empty h, h])
      · exact (ih _ _ rfl hne t e b hm).mono (Stmts.Le.trans h1.le (Stmts.le_of _ _))
    | error => cases hr
    | panic => cases hr

theorem OmgWtfR.blocks {s s' : Stmts} {t : Token} {b : Block} (h : OmgWtfR s (.ok (Option.some (.mk t b)) s'))
    (hne : s'.cur ≠ []) : BlockReadIn s b := by
  generalize hr : Read.ok (Option.some (WtfOmgWtf.mk t b)) s' = r at h
  cases h with
  | @some _ _ r _ h =>
    cases r with
    | ok a s1 => cases hr; exact blockReadIn h hne
    | _ => cases hr
  | _ => cases hr

theorem YaRlyR.blocks {s s' : Stmts} {t : Token} {b : Block} (h : YaRlyR s (.ok (Option.some (.mk t b)) s'))
    (hne : s'.cur ≠ []) : BlockReadIn s b := by
  generalize hr : Read.ok (Option.some (YaRly.mk t b)) s' = r at h
  cases h with
  | @some _ _ r _ h =>
    cases r with
    | ok a s1 => cases hr; exact blockReadIn h hne
    | _ => cases hr
  | _ => cases hr

theorem NoWaiR.blocks {s s' : Stmts} {t : Token} {b : Block} (h : NoWaiR s (.ok (Option.some (.mk t b)) s'))
    (hne : s'.cur ≠ []) : BlockReadIn s b := by
  generalize hr : Read.ok (Option.some (NoWai.mk t b)) s' = r at h
  cases h with
  | @some _ _ r _ h =>
    cases r with
    | ok a s1 => cases hr; exact blockReadIn h hne
    | _ => cases hr
  | _ => cases hr

theorem SimpleG.noBlocks {rest ts : List Token} {node : Node} (h : SimpleG rest ts node) : node.blocks = [] := by
  cases h <;> rfl

theorem NodeR.blocks {s s' : Stmts} {node : Node} (h : NodeR s (.ok node s')) : ∀ b ∈ node.blocks, BlockReadIn s b := by
  intro b hb
  generalize hr : Read.ok node s' = r at h
  cases h with
  | simple h => cases hr; rw [h.noBlocks] at hb; cases hb
  | simpleFail => exact absurd hr.symm Fail.read_ne_ok
  | hai => cases hr; cases hb
  | headFail => exact absurd hr.symm Fail.read_ne_ok
  | loop _ h _ =>
    cases hr
    simp only [Node.blocks, List.mem_singleton] at hb
    subst hb
    exact blockReadIn h (by simp)
  | function _ h =>
    cases hr
    simp only [Node.blocks, List.mem_singleton] at hb
    subst hb
    exact blockReadIn h (by simp)
  | switch _ h1 h2 _ =>
    cases hr
    have hle : (Stmts.Le _ _) := h1.le
    rcases List.mem_append.1 hb with hb | hb
    · obtain ⟨⟨t, e, b⟩, hm, rfl⟩ := List.mem_map.1 hb
      refine (h1.blocks _ _ rfl ?_ t e b hm).mono (Stmts.le_of _ _)
      intro h
      have := h2.empty h
      rw [← this] at h
      cases h
    · obtain ⟨⟨t, b⟩, hm, rfl⟩ := List.mem_map.1 hb
      cases Option.mem_toList.1 hm
      exact ((h2.blocks (by simp)).mono hle).mono (Stmts.le_of _ _)
  | conditional _ h1 h2 h3 _ =>
    cases hr
    have hle1 : (Stmts.Le _ _) := h1.le
    have hle2 : (Stmts.Le _ _) := h2.le
    have hne2 : ∀ {s2 : Stmts} {noWai l}, NoWaiR s2 (.ok noWai l) → l.cur ≠ [] → s2.cur ≠ [] := by
      intro s2 _ l h hl h'
      exact hl (by rw [h.empty h', h'])
    have h2ne := hne2 h3 (by simp)
    have h1ne : ∀ {s1 s2 : Stmts} {m}, MebbesR s1 (.ok m s2) → s2.cur ≠ [] → s1.cur ≠ [] := by
      intro s1 s2 _ h hl h'
      exact hl (by rw [h.empty h', h'])
    rcases List.mem_append.1 hb with hb | hb
    · obtain ⟨⟨t, b⟩, hm, rfl⟩ := List.mem_map.1 hb
      cases Option.mem_toList.1 hm
      exact (h1.blocks (h1ne h2 h2ne)).mono (Stmts.le_of _ _)
    · rcases List.mem_append.1 hb with hb | hb
      · obtain ⟨⟨t, e, b⟩, hm, rfl⟩ := List.mem_map.1 hb
        exact ((h2.blocks _ _ rfl h2ne t e b hm).mono hle1).mono (Stmts.le_of _ _)
      · obtain ⟨⟨t, b⟩, hm, rfl⟩ := List.mem_map.1 hb
        cases Option.mem_toList.1 hm
        exact (((h3.blocks (by simp)).mono hle2).mono hle1).mono (Stmts.le_of _ _)
  | switchCases => exact absurd hr.symm Fail.read_ne_ok
  | switchDefault => exact absurd hr.symm Fail.read_ne_ok
  | conditionalYes => exact absurd hr.symm Fail.read_ne_ok
  | conditionalMaybe => exact absurd hr.symm Fail.read_ne_ok
  | conditionalNo => exact absurd hr.symm Fail.read_ne_ok
  | _ => cases hr

/-- A block anywhere in a block that has been read is that block, or has been read up to a closing keyword. -/
theorem BlockR.blockIn {close : List Keyword} {s s' : Stmts} {b root : Block} (h : BlockIn b root) :
    BlockR close s (.ok root s') → b = root ∨ BlockReadIn s b := by
  induction h generalizing close s s' with
  | self => intro _; exact .inl rfl
  | inside h1 h2 _ ih =>
    intro h
    rcases h.mem _ _ rfl _ h1 with ⟨e, rfl, -⟩ | ⟨ts, later, s1, h3, h4, h5⟩
    · cases h2
    · have h6 := h5.blocks _ h2
      have hle : Stmts.Le ⟨ts, later⟩ s := fun _ _ h => h.trans h4
      obtain ⟨close', l, s2, h7, h8, h9⟩ := h6
      rcases ih h8 with rfl | h10
      · exact .inr ⟨close', l, s2, h7.trans hle, h8, h9⟩
      · exact .inr (h10.mono (h7.trans hle))

/-- A node anywhere in a program that has been read is an error node or has been read from one of its
statements. -/
theorem parseStmts_nodes {s : Stmts} {nodes b : Block} {node : Node} (h : parseStmts s = .ok nodes)
    (hb : BlockIn b nodes) (hn : node ∈ b) : ErrorNode s node ∨ ReadIn s node := by
  obtain ⟨s', h⟩ := parseStmts_ok_iff.1 h
  rcases h.blockIn hb with rfl | ⟨close', l, s2, h7, h8, h9⟩
  · exact h.mem _ _ rfl _ hn
  · rcases h8.mem _ _ rfl _ hn with h | h
    · exact .inl (h.mono h7)
    · exact .inr (h.mono h7)

end Lol
