import Verif.Parser.EditErrors
import Verif.Props.Bodies

/-! # Replacing a statement by several, inserting and deleting lines (C80) -/

namespace Lol

/-- The nodes that statements give, each alone. -/
inductive Each : List (List Token) → Block → Prop
  | nil : Each [] []
  | cons {st : List Token} {sts : List (List Token)} {y ys : Block} : (∀ one, Alone one st → parse one = .ok y) →
      Each sts ys → Each (st :: sts) (y ++ ys)

/-- The nodes of the statement `st` and those of the statements `st'` and `sts` in its place, with the tokens replaced
by `f`: what each gives alone, but `st` and `st'` may be statements whose tokens are not read as a statement. -/
inductive OwnRun (f : Token → Token) (st st' : List Token) (sts : List (List Token)) : Block → Block → Prop
  | alone {x x' ys : Block} : (∀ one, Alone one st → parse one = .ok x) → (∀ one, Alone one st' → parse one = .ok x') →
      Each sts ys → OwnRun f st st' sts (mapBlock f x) (mapBlock f (x' ++ ys))
  | misread {x x' ys : Block} : Misread (st.map f) (st'.map f) x x' → Each sts ys →
      OwnRun f st st' sts x (x' ++ mapBlock f ys)

/-- The statements of `tokens'` are those of `tokens`, up to `f`, but it has the statements `sts`, which open no block and
end none, after `st'` in the place of `st`, the `i`-th one. -/
structure Replaced (f : Token → Token) (tokens tokens' : List Token) (i : Nat) (st st' : List Token)
    (sts : List (List Token)) : Prop where
  old : stmt tokens i = st
  new : ∀ k, k < sts.length + 1 → stmt tokens' (i + k) = (st' :: sts).getD k []
  before : ∀ j, j < i → (stmt tokens' j).map f = (stmt tokens j).map f
  after : ∀ j, (stmt tokens' (i + (sts.length + 1) + j)).map f = (stmt tokens (i + 1 + j)).map f
  plain : Plain st
  plain' : Plain st'
  plains : ∀ q ∈ sts, Plain q

theorem parse_range (tokens : List Token) (m : Nat) (hm : (split tokens).all.length ≤ m) :
    parse tokens = parseStmts (.of ((List.range m).map (stmt tokens))) := by
  rw [parse_eq]
  apply parseStmts_congr
  intro k
  rw [show (Stmts.of ((List.range m).map (stmt tokens))).all.getD k [] =
    ((List.range m).map (stmt tokens)).getD k [] by
      cases hr : (List.range m).map (stmt tokens) with
      | nil => cases k <;> rfl
      | cons c l => rfl]
  by_cases hk : k < m
  · simp [List.getD_eq_getElem?_getD, hk, stmt]
  · rw [List.getD_eq_getElem?_getD, List.getElem?_eq_none (by omega), List.getD_eq_getElem?_getD,
      List.getElem?_eq_none (by simp; omega)]

theorem map_range_add {α : Type} (g : Nat → α) (a b : Nat) :
    (List.range (a + b)).map g = (List.range a).map g ++ (List.range b).map fun k => g (a + k) := by
  rw [List.range_add, List.map_append, List.map_map]
  rfl

/-- The two programs. -/
theorem Replaced.stmts {f : Token → Token} {tokens tokens' : List Token} {i : Nat} {st st' : List Token}
    {sts : List (List Token)} (h : Replaced f tokens tokens' i st st' sts) :
    ∃ pre pre' post post', parse tokens = parseStmts (.of (pre ++ st :: post)) ∧
      parse tokens' = parseStmts (.of (pre' ++ st' :: (sts ++ post'))) ∧ pre'.map (List.map f) = pre.map (List.map f) ∧
      post'.map (List.map f) = post.map (List.map f) ∧ ∀ st ∈ pre, ∃ j, j < i ∧ stmt tokens j = st := by
  let N := (split tokens).all.length + (split tokens').all.length
  have h1 := parse_range tokens (i + (1 + N)) (by omega)
  have h2 := parse_range tokens' (i + ((sts.length + 1) + N)) (by omega)
  rw [map_range_add, map_range_add] at h1 h2
  refine ⟨(List.range i).map (stmt tokens), (List.range i).map (stmt tokens'),
    (List.range N).map fun k => stmt tokens (i + (1 + k)),
    (List.range N).map fun k => stmt tokens' (i + ((sts.length + 1) + k)), ?_, ?_,
    ?_, ?_, ?_⟩
  · rw [h1]
    simp [h.old]
  · rw [h2]
    congr 3
    have : (List.range (sts.length + 1)).map (fun k => stmt tokens' (i + k)) = st' :: sts := by
      apply List.ext_getElem (by simp)
      intro k hk hk'
      have hk : k < sts.length + 1 := by simpa using hk
      have := h.new k hk
      rw [List.getD_eq_getElem?_getD, List.getElem?_eq_getElem hk'] at this
      simpa using this
    rw [this]
    rfl
  · simp only [List.map_map]
    apply List.map_congr_left
    intro j hj
    exact h.before j (List.mem_range.1 hj)
  · simp only [List.map_map]
    apply List.map_congr_left
    intro j hj
    have := h.after j
    rwa [Nat.add_assoc, Nat.add_assoc i 1 j] at this
  · intro x hx
    obtain ⟨j, hj, rfl⟩ := List.mem_map.1 hx
    exact ⟨j, List.mem_range.1 hj, rfl⟩

/-- What a statement gives alone, from what it gives with its tokens replaced. -/
theorem step_alone {f : Token → Token} (hf : ∀ t, (f t).tokenType.kind = t.tokenType.kind) {st : List Token} {x : Block}
    (h : ∀ l, StepR ⟨st.map f, l⟩ (.ok x (.of l))) :
    ∃ y, mapBlock f y = x ∧ ∀ one, Alone one st → parse one = .ok y := by
  have h1 : parseStmts (Stmts.map f ⟨st, []⟩) = .ok x := parseStmts_ok_iff.2 ⟨_, .last (h []) (.inl rfl)⟩
  rw [parseStmts_map hf] at h1
  cases h2 : parseStmts ⟨st, []⟩ with
  | ok y =>
    rw [h2] at h1
    exact ⟨y, Out.ok.inj h1, fun one ho => by rw [parse_alone ho, h2]⟩
  | panic p => rw [h2] at h1; cases h1
  | outOfFuel => rw [h2] at h1; cases h1

theorem Runs.each {f : Token → Token} (hf : ∀ t, (f t).tokenType.kind = t.tokenType.kind) :
    ∀ {sts : List (List Token)} {ys : Block}, Runs (sts.map (List.map f)) ys → ∃ zs, mapBlock f zs = ys ∧ Each sts zs
  | [], _, h => by cases h; exact ⟨[], rfl, .nil⟩
  | st :: sts, _, h => by
    generalize hL : (st :: sts).map (List.map f) = L at h
    cases h with
    | nil => cases hL
    | cons h1 h2 =>
      cases hL
      obtain ⟨y, rfl, g1⟩ := step_alone hf h1
      obtain ⟨ys, rfl, g2⟩ := Runs.each hf h2
      exact ⟨y ++ ys, mapBlock_append _ _, .cons g1 g2⟩

theorem ownRun_of {f : Token → Token} (hf : ∀ t, (f t).tokenType.kind = t.tokenType.kind) {st st' : List Token}
    {sts : List (List Token)} {x x' : Block} (h : OwnR (st.map f) (st'.map f) (sts.map (List.map f)) x x') :
    OwnRun f st st' sts x x' := by
  obtain ⟨h1, h2⟩ := h
  obtain ⟨zs, rfl, h3⟩ := h2.each hf
  cases h1 with
  | alone ha hb =>
    obtain ⟨y, rfl, ga⟩ := step_alone hf ha
    obtain ⟨y', rfl, gb⟩ := step_alone hf hb
    rw [← mapBlock_append]
    exact .alone ga gb h3
  | misread h => exact .misread h h3

/-- The two readings. -/
theorem Replaced.read {f : Token → Token} (hf : ∀ t, (f t).tokenType.kind = t.tokenType.kind)
    {tokens tokens' : List Token} {i : Nat} {st st' : List Token} {sts : List (List Token)}
    (h : Replaced f tokens tokens' i st st' sts) {nodes : Block} (h4 : parse tokens = .ok nodes) :
    ∃ s r r' pre post,
      BlockR [] (.of (pre ++ st.map f :: post)) (.ok (mapBlock f nodes) s) ∧
      (∀ x ∈ pre, ∃ j, j < i ∧ (stmt tokens j).map f = x) ∧ mapOutcome f (parse tokens') = parseStmts r' ∧
      BlockR [] r' r ∧
      RelRead (st.map f) (st'.map f) (sts.map (List.map f)) post
        (Edited (OwnR (st.map f) (st'.map f) (sts.map (List.map f)))) (.ok (mapBlock f nodes) s) r := by
  obtain ⟨pre, pre', post, post', h1, h2, e1, e2, e3⟩ := h.stmts
  have a4 := congrArg (mapOutcome f) h4
  have a5 := congrArg (mapOutcome f) h2
  rw [h1, ← parseStmts_map hf, Stmts.map_of] at a4
  rw [← parseStmts_map hf, Stmts.map_of] at a5
  simp only [List.map_append, List.map_cons, e1, e2] at a4 a5
  obtain ⟨s, h6⟩ := parseStmts_ok_iff.1 a4
  obtain ⟨r, h7, h8⟩ := h6.edit (ps := sts.map (List.map f)) (h.plain.map hf) (h.plain'.map hf) (by
    intro q hq
    obtain ⟨q, hq1, rfl⟩ := List.mem_map.1 hq
    exact (h.plains q hq1).map hf) (by simp) (by simp) _ (near_of _)
  refine ⟨s, r, _, _, _, h6, ?_, a5, h7, h8⟩
  intro x hx
  obtain ⟨y, hy, rfl⟩ := List.mem_map.1 hx
  obtain ⟨j, hj, rfl⟩ := e3 y hy
  exact ⟨j, hj, rfl⟩

theorem getD_bare (f : Token → Token) (L : List (List Token)) (j : Nat) :
    (L.getD j []).map f = (L.map (List.map f)).getD j [] := by
  rw [List.getD_eq_getElem?_getD, List.getD_eq_getElem?_getD, List.getElem?_map]
  cases L[j]? <;> rfl

/-- For the examples. -/
theorem replaced_of {f : Token → Token} {tokens tokens' : List Token} {st st' : List Token}
    {sts pre pre' post post' : List (List Token)} (h1 : (split tokens).all = pre ++ st :: post)
    (h2 : (split tokens').all = pre' ++ st' :: (sts ++ post')) (e1 : pre'.map (List.map f) = pre.map (List.map f))
    (e2 : post'.map (List.map f) = post.map (List.map f)) (p1 : Plain st) (p2 : Plain st') (p3 : ∀ q ∈ sts, Plain q) :
    Replaced f tokens tokens' pre.length st st' sts := by
  have hl : pre'.length = pre.length := by simpa using congrArg List.length e1
  refine ⟨?_, ?_, ?_, ?_, p1, p2, p3⟩
  · rw [stmt, h1]; simp [List.getD]
  · intro k hk
    rw [stmt, h2, ← hl]
    have := getD_middle (pre := pre') (m := st' :: sts) (post := post') k (by simpa using hk)
    simpa using this
  · intro j hj
    rw [stmt, stmt, getD_bare, getD_bare, h1, h2, List.map_append, List.map_append, e1,
      List.getD_eq_getElem?_getD, List.getD_eq_getElem?_getD, List.getElem?_append_left (by simpa using hj),
      List.getElem?_append_left (by simpa using hj)]
  · intro j
    rw [stmt, stmt, getD_bare, getD_bare, h1, h2, List.map_append, List.map_append, e1, List.map_cons, List.map_cons,
      List.map_append, e2, List.getD_eq_getElem?_getD, List.getD_eq_getElem?_getD,
      List.getElem?_append_right (by simp; omega), List.getElem?_append_right (by simp; omega), List.length_map,
      show pre.length + (sts.length + 1) + j - pre.length = sts.length + j + 1 by omega,
      show pre.length + 1 + j - pre.length = j + 1 by omega, List.getElem?_cons_succ, List.getElem?_cons_succ,
      List.getElem?_append_right (by simp), List.length_map, Nat.add_sub_cancel_left]

/-! ## C80 -/

/-- **C80** One statement of any program is replaced by one or more, wherever it is: the trees are the same, or they are
except that the one has the nodes of the old statement where the other has those of the new ones. All this up to a
replacement of tokens that keeps their kinds: with the identity the trees are compared as they are, with
`Token.unplaced` without positions. -/
theorem C80_replace {f : Token → Token} (hf : ∀ t, (f t).tokenType.kind = t.tokenType.kind)
    {tokens tokens' : List Token} {i : Nat} {st st' : List Token} {sts : List (List Token)}
    (h : Replaced f tokens tokens' i st st' sts)
    {nodes nodes' : Block} (h4 : parse tokens = .ok nodes) (h5 : parse tokens' = .ok nodes') :
    mapBlock f nodes' = mapBlock f nodes ∨
      Edited (OwnRun f st st' sts) (mapBlock f nodes) (mapBlock f nodes') := by
  obtain ⟨s, r, r', pre, post, -, -, h6, h7, h8⟩ := h.read hf h4
  rw [h5] at h6
  obtain ⟨s', h9⟩ := parseStmts_ok_iff.1 h6.symm
  cases h7.det h9
  rcases h8.ok_inv with ⟨_, h, -⟩ | ⟨_, h, h10⟩ | ⟨_, h, -⟩
  · rw [(Read.ok.inj h).1]
    exact .inl rfl
  · cases h
    exact .inr (h10.mono fun _ _ => ownRun_of hf)
  · cases h

-- In a loop, `GTFO` is replaced by two statements, the first of which is in error.
example : ∃ tokens tokens' nodes nodes',
    tokenize chars!"IM IN YR l\nGTFO\nIM OUTTA YR l" = .ok (.ok tokens) ∧
    tokenize chars!"IM IN YR l\nVISIBLE AN\nx R 1, GTFO\nIM OUTTA YR l" = .ok (.ok tokens') ∧
    Replaced Token.unplaced tokens tokens' 1 (stmt tokens 1) (stmt tokens' 1) [stmt tokens' 2, stmt tokens' 3] ∧
    parse tokens = .ok nodes ∧ parse tokens' = .ok nodes' := by
  obtain ⟨tokens, h⟩ : ∃ ts, tokenize chars!"IM IN YR l\nGTFO\nIM OUTTA YR l" = .ok (.ok ts) := ⟨_, rfl⟩
  obtain ⟨tokens', h'⟩ : ∃ ts, tokenize chars!"IM IN YR l\nVISIBLE AN\nx R 1, GTFO\nIM OUTTA YR l" = .ok (.ok ts) :=
    ⟨_, rfl⟩
  refine ⟨tokens, tokens', ?_⟩
  rw [h, h']
  cases h
  cases h'
  refine ⟨_, _, rfl, rfl, replaced_of (pre := [_]) (pre' := [_]) (post := [_]) (post' := [_]) rfl rfl (by decide +kernel)
    (by decide +kernel) ⟨_, _, rfl, by decide +kernel⟩ ⟨_, _, rfl, by decide +kernel⟩ ?_, rfl, rfl⟩
  intro q hq
  rcases List.mem_cons.1 hq with rfl | hq
  · exact ⟨_, _, rfl, by decide +kernel⟩
  · rcases List.mem_cons.1 hq with rfl | hq
    · exact ⟨_, _, rfl, by decide +kernel⟩
    · cases hq

/-- **C80** If there is no empty statement before the old one, then the nodes are in the trees, unless they were dropped
with a construct that is in error. -/
theorem C80_there {f : Token → Token} (hf : ∀ t, (f t).tokenType.kind = t.tokenType.kind)
    {tokens tokens' : List Token} {i : Nat} {st st' : List Token} {sts : List (List Token)}
    (h : Replaced f tokens tokens' i st st' sts) (hne : ∀ j, j < i → stmt tokens j ≠ [])
    {nodes nodes' : Block} (h4 : parse tokens = .ok nodes) (h5 : parse tokens' = .ok nodes') :
    Edited (OwnRun f st st' sts) (mapBlock f nodes) (mapBlock f nodes') := by
  obtain ⟨s, r, r', pre, post, h0, hpre, h6, h7, h8⟩ := h.read hf h4
  rw [h5] at h6
  obtain ⟨s', h9⟩ := parseStmts_ok_iff.1 h6.symm
  cases h7.det h9
  rcases h8.ok_inv with ⟨_, _, h10⟩ | ⟨_, h, h10⟩ | ⟨_, h, -⟩
  · obtain ⟨j, hj, he⟩ := hpre _ (edit_stop (PlainTokens.ne_nil (h.plain.map hf)) h0 h10)
    exact absurd (List.map_eq_nil_iff.1 he) (hne j hj)
  · cases h
    exact h10.mono fun _ _ => ownRun_of hf
  · cases h

-- In a loop, `GTFO` is replaced by two statements; no statement before it is empty.
example : ∃ tokens tokens' nodes nodes',
    tokenize chars!"IM IN YR l\nGTFO\nIM OUTTA YR l" = .ok (.ok tokens) ∧
    tokenize chars!"IM IN YR l\nVISIBLE x\nGTFO\nIM OUTTA YR l" = .ok (.ok tokens') ∧
    Replaced Token.unplaced tokens tokens' 1 (stmt tokens 1) (stmt tokens' 1) [stmt tokens' 2] ∧
    (∀ j, j < 1 → stmt tokens j ≠ []) ∧ parse tokens = .ok nodes ∧ parse tokens' = .ok nodes' := by
  obtain ⟨tokens, h⟩ : ∃ ts, tokenize chars!"IM IN YR l\nGTFO\nIM OUTTA YR l" = .ok (.ok ts) := ⟨_, rfl⟩
  obtain ⟨tokens', h'⟩ : ∃ ts, tokenize chars!"IM IN YR l\nVISIBLE x\nGTFO\nIM OUTTA YR l" = .ok (.ok ts) := ⟨_, rfl⟩
  refine ⟨tokens, tokens', ?_⟩
  rw [h, h']
  cases h
  cases h'
  refine ⟨_, _, rfl, rfl, replaced_of (pre := [_]) (pre' := [_]) (post := [_]) (post' := [_]) rfl rfl (by decide +kernel)
    (by decide +kernel) ⟨_, _, rfl, by decide +kernel⟩ ⟨_, _, rfl, by decide +kernel⟩ ?_, by decide +kernel, rfl, rfl⟩
  intro q hq
  rcases List.mem_cons.1 hq with rfl | hq
  · exact ⟨_, _, rfl, by decide +kernel⟩
  · cases hq

/-- **C80** The new program panics only if one of the new statements does so alone. -/
theorem C80_panic {f : Token → Token} (hf : ∀ t, (f t).tokenType.kind = t.tokenType.kind)
    {tokens tokens' : List Token} {i : Nat} {st st' : List Token} {sts : List (List Token)}
    (h : Replaced f tokens tokens' i st st' sts)
    {nodes : Block} (h4 : parse tokens = .ok nodes) {p : PanicSite} (h5 : parse tokens' = .panic p) :
    ∃ q ∈ st' :: sts, ∀ one, Alone one q → parse one = .panic p := by
  obtain ⟨s, r, r', pre, post, -, -, h6, h7, h8⟩ := h.read hf h4
  rw [h5] at h6
  cases h7.det (parseStmts_panic_iff.1 h6.symm)
  rcases h8.ok_inv with ⟨_, h, -⟩ | ⟨_, h, -⟩ | ⟨q, h, q', hq, h10⟩
  · cases h
  · cases h
  · cases h
    have hq : q' ∈ (st' :: sts).map (List.map f) := hq.mem
    obtain ⟨q, hq1, rfl⟩ := List.mem_map.1 hq
    refine ⟨q, hq1, fun one h9 => ?_⟩
    rw [parse_alone h9]
    have h11 : parseStmts (Stmts.map f ⟨q, []⟩) = .panic p := parseStmts_panic_iff.2 (.panic (h10 []))
    rw [parseStmts_map hf] at h11
    cases h12 : parseStmts ⟨q, []⟩ with
    | ok y => rw [h12] at h11; cases h11
    | panic q => rw [h12] at h11; cases h11; rfl
    | outOfFuel => rw [h12] at h11; cases h11

-- The second of the new statements panics.
example : ∃ tokens tokens' nodes,
    tokenize chars!"IM IN YR l\nGTFO\nIM OUTTA YR l" = .ok (.ok tokens) ∧
    tokenize chars!"IM IN YR l\nGTFO\nVISIBLE 1 MAEK a\nIM OUTTA YR l" = .ok (.ok tokens') ∧
    Replaced Token.unplaced tokens tokens' 1 (stmt tokens 1) (stmt tokens' 1) [stmt tokens' 2] ∧
    parse tokens = .ok nodes ∧ parse tokens' = .panic .todoMaek := by
  obtain ⟨tokens, h⟩ : ∃ ts, tokenize chars!"IM IN YR l\nGTFO\nIM OUTTA YR l" = .ok (.ok ts) := ⟨_, rfl⟩
  obtain ⟨tokens', h'⟩ : ∃ ts, tokenize chars!"IM IN YR l\nGTFO\nVISIBLE 1 MAEK a\nIM OUTTA YR l" = .ok (.ok ts) :=
    ⟨_, rfl⟩
  refine ⟨tokens, tokens', ?_⟩
  rw [h, h']
  cases h
  cases h'
  refine ⟨_, rfl, rfl, replaced_of (pre := [_]) (pre' := [_]) (post := [_]) (post' := [_]) rfl rfl (by decide +kernel)
    (by decide +kernel) ⟨_, _, rfl, by decide +kernel⟩ ⟨_, _, rfl, by decide +kernel⟩ ?_, rfl, rfl⟩
  intro q hq
  rcases List.mem_cons.1 hq with rfl | hq
  · exact ⟨_, _, rfl, by decide +kernel⟩
  · cases hq

/-! ## Lines of a source text -/

/-- The text is one or more statements, on lines of their own, none of which opens a block, ends one or opens a part of a
construct. -/
def SomeStatements (m : Str) : Prop := ∃ tm, LinesOf m tm ∧ ∀ st ∈ (split tm).all, Plain st

/-- The nodes of the line `l`, and the same ones followed by those of the text `m` as a program of its own, all without
positions. -/
def ThenText (l m : Str) (x x' : Block) : Prop :=
  OwnText l l x x ∧ ∃ y, tokenizeAndParse (m ++ ['\n']) = .ok (.ok y) ∧ x' = x ++ mapBlock Token.unplaced y

theorem FirstR.same {st : List Token} {x x' : Block} (h : FirstR st st x x') : x' = x := by
  cases h with
  | alone h1 h2 => cases (h1 []).det (h2 []); rfl
  | misread h =>
    cases h with
    | left => rfl
    | unexpected h1 h2 => rw [h1] at h2; cases h2; rfl

theorem Runs.block : ∀ {ps : List (List Token)} {ys : Block}, Runs ps ys → (∀ q ∈ ps, PlainTokens q) → ps ≠ [] →
    BlockR [] (.of ps) (.ok ys (.of []))
  | [], _, _, _, h => absurd rfl h
  | [q], _, .cons h1 h2, _, _ => by
    cases h2
    rw [List.append_nil]
    exact .last (h1 []) (.inl rfl)
  | q :: q' :: ps, _, .cons h1 h2, hp, _ => by
    refine .more (h1 _) ?_ (Runs.block h2 (fun q h => hp q (List.mem_cons_of_mem _ h)) (by simp))
    rintro (h | ⟨_, _, _, k, hk, _⟩)
    · exact (hp q' (by simp)).ne_nil h
    · cases hk

/-- What plain statements give, each alone, is what they give as a program. -/
theorem Runs.program {f : Token → Token} (hf : ∀ t, (f t).tokenType.kind = t.tokenType.kind) {tm : List Token} {ys : Block}
    (hp : ∀ st ∈ (split tm).all, Plain st) (h : Runs ((split tm).all.map (List.map f)) ys) :
    ∃ y, parse tm = .ok y ∧ mapBlock f y = ys := by
  have h1 := parseStmts_ok_iff.2 ⟨_, h.block (by
    intro q hq
    obtain ⟨q, hq1, rfl⟩ := List.mem_map.1 hq
    exact (hp q hq1).map hf) (by simp [Stmts.all])⟩
  have e : Stmts.of ((split tm).all.map (List.map f)) = Stmts.map f (split tm) := rfl
  rw [e, parseStmts_map hf] at h1
  rw [parse_eq]
  exact mapOutcome_eq_ok h1

/-- A panic of one of the statements is one of the program. -/
theorem Runs.total {f : Token → Token} (hf : ∀ t, (f t).tokenType.kind = t.tokenType.kind) {tm : List Token} {y : Block}
    (h : parse tm = .ok y) (hp : ∀ st ∈ (split tm).all, Plain st) :
    ∀ q ∈ (split tm).all.map (List.map f), ∀ p, ¬ ∀ l, StepR ⟨q, l⟩ (.panic p) := by
  have h1 := congrArg (mapOutcome f) h
  rw [parse_eq, ← parseStmts_map hf] at h1
  obtain ⟨s, h2⟩ := parseStmts_ok_iff.1 h1
  have e : Stmts.map f (split tm) = Stmts.of ((split tm).all.map (List.map f)) := rfl
  rw [e] at h2
  have hp' : ∀ q ∈ (split tm).all.map (List.map f), PlainTokens q := by
    intro q hq
    obtain ⟨q, hq1, rfl⟩ := List.mem_map.1 hq
    exact (hp q hq1).map hf
  generalize (split tm).all.map (List.map f) = ps at *
  have key : ∀ ps : List (List Token), ∀ b s, BlockR [] (.of ps) (.ok b s) → (∀ q ∈ ps, PlainTokens q) →
      ∀ q ∈ ps, ∀ p, ¬ ∀ l, StepR ⟨q, l⟩ (.panic p) := by
    intro ps
    induction ps with
    | nil => intro _ _ _ _ q hq; cases hq
    | cons a ps ih =>
      intro b s h hp q hq p hpan
      rcases (hp a List.mem_cons_self).step with ⟨x, hx⟩ | ⟨p', hx⟩
      · rcases List.mem_cons.1 hq with rfl | hq
        · cases (hx []).det (hpan [])
        · generalize hr : Read.ok b s = r at h
          cases h with
          | last h1 h2 =>
            cases hr
            cases h1.det (hx ps)
            obtain ⟨c, ps', rfl⟩ : ∃ c ps', ps = c :: ps' := by
              cases ps with
              | nil => cases hq
              | cons c ps' => exact ⟨c, ps', rfl⟩
            rcases h2 with h2 | ⟨_, _, _, k, hk, _⟩
            · exact (hp c (by simp)).ne_nil h2
            · cases hk
          | more h1 h2 h3 =>
            rename_i r0
            cases h1.det (hx ps)
            cases r0 with
            | ok b' s' => exact ih _ _ h3 (fun q h => hp q (List.mem_cons_of_mem _ h)) q hq p hpan
            | error e s' => cases hr
            | panic p => cases hr
          | panic h1 => cases hr
      · generalize hr : Read.ok b s = r at h
        cases h with
        | last h1 h2 => cases h1.det (hx ps)
        | more h1 h2 h3 => cases h1.det (hx ps)
        | panic h1 => cases hr
  exact key ps _ _ h2 hp'

/-- The two sources. -/
theorem LinesOf.inserted {a l m b : Str} {ta tl tm st : List Token} (ha : LinesOf a ta) (hl : LinesOf l tl)
    (hs : (split tl).all = [st]) (hst : Plain st) (hm : LinesOf m tm) (hms : ∀ st ∈ (split tm).all, Plain st)
    {nodes : Block} (h : tokenizeAndParse (a ++ '\n' :: (l ++ '\n' :: b)) = .ok (.ok nodes)) :
    ∃ ts ts' i sts, tokenize (a ++ '\n' :: (l ++ '\n' :: b)) = .ok (.ok ts) ∧
      tokenize (a ++ '\n' :: (l ++ '\n' :: (m ++ '\n' :: b))) = .ok (.ok ts') ∧
      (stmt ts i).map Token.unplaced = st.map Token.unplaced ∧
      (stmt ts' i).map Token.unplaced = st.map Token.unplaced ∧ bareStmts sts = bareStmts (split tm).all ∧
      Replaced Token.unplaced ts ts' i (stmt ts i) (stmt ts' i) sts := by
  have hb : ∃ tb, tokenize b = .ok (.ok tb) := by
    have e1 := C54_lines (b := l ++ '\n' :: b) ha.1 ha.2.1
    have e2 := C54_lines (b := b) hl.1 hl.2.1
    unfold tokenizeAndParse at h
    rw [e1, e2] at h
    rcases hbt : tokenize b with (e | us) | p | _
    · rw [hbt] at h; cases h
    · exact ⟨us, rfl⟩
    · rw [hbt] at h; cases h
    · rw [hbt] at h; cases h
  obtain ⟨tb, hb⟩ := hb
  obtain ⟨tx, hx, hx1, -⟩ := hm.append hb
  have hgap : splitGap tm = (split tm).all := by
    apply splitGap_of_stmt
    exact (hms _ (by simp [stmt, Stmts.all])).ne_nil
  rw [hgap] at hx1
  obtain ⟨ts, h1, h2⟩ := ha.around hl hs hst.ne_nil hb
  obtain ⟨ts', h1', h2'⟩ := ha.around hl hs hst.ne_nil hx
  rw [hx1] at h2'
  generalize ((if ta = [] then [] else leading ta) ++ bareStmts (splitGap ta)) = P at h2 h2'
  have hlen : (bareStmts (split tm).all).length = (split tm).all.length := by simp [bareStmts]
  have e1 : (stmt ts P.length).map Token.unplaced = st.map Token.unplaced := by
    rw [bareStmts_stmt, h2]; simp [List.getD]
  have e2 : (stmt ts' P.length).map Token.unplaced = st.map Token.unplaced := by
    rw [bareStmts_stmt, h2']; simp [List.getD]
  let sts := (List.range (split tm).all.length).map fun k => stmt ts' (P.length + 1 + k)
  have hsl : sts.length = (split tm).all.length := by simp [sts]
  have e3 : bareStmts sts = bareStmts (split tm).all := by
    apply List.ext_getElem (by rw [hlen]; simp [bareStmts, sts])
    intro k hk hk'
    have hk1 : k < (split tm).all.length := by rwa [hlen] at hk'
    have := bareStmts_stmt ts' (P.length + 1 + k)
    rw [h2', List.getD_eq_getElem?_getD, List.getElem?_append_right (by omega),
      show P.length + 1 + k - P.length = k + 1 by omega, List.getElem?_cons_succ,
      List.getElem?_append_left hk', List.getElem?_eq_getElem hk'] at this
    simpa [bareStmts, sts] using this
  refine ⟨ts, ts', P.length, sts, h1, h1', e1, e2, e3, rfl, ?_, ?_, ?_, hst.of_bare e1, hst.of_bare e2, ?_⟩
  · intro k hk
    cases k with
    | zero => rfl
    | succ k =>
      have hk : k < (split tm).all.length := by omega
      rw [show P.length + (k + 1) = P.length + 1 + k by omega]
      show _ = ((stmt ts' P.length) :: sts).getD (k + 1) []
      rw [List.getD_eq_getElem?_getD, List.getElem?_cons_succ]
      simp [sts, hk]
  · intro j hj
    rw [bareStmts_stmt, bareStmts_stmt, h2, h2', List.getD_eq_getElem?_getD, List.getD_eq_getElem?_getD,
      List.getElem?_append_left hj, List.getElem?_append_left hj]
  · intro j
    rw [bareStmts_stmt, bareStmts_stmt, h2, h2', List.getD_eq_getElem?_getD, List.getD_eq_getElem?_getD,
      List.getElem?_append_right (by omega), List.getElem?_append_right (by omega), hsl,
      show P.length + ((split tm).all.length + 1) + j - P.length = ((split tm).all.length + j) + 1 by omega,
      show P.length + 1 + j - P.length = j + 1 by omega, List.getElem?_cons_succ, List.getElem?_cons_succ,
      List.getElem?_append_right (by omega), hlen, Nat.add_sub_cancel_left]
  · intro q hq
    obtain ⟨k, hk, rfl⟩ := List.getElem_of_mem hq
    have hk' : k < (split tm).all.length := by omega
    refine (hms _ (List.getElem_mem hk')).of_bare ?_
    have : (bareStmts sts)[k]? = (bareStmts (split tm).all)[k]? := by rw [e3]
    simpa [bareStmts, hk, hk'] using this

/-- What C80_lines and C80_lines_there have in common. -/
private theorem lines_edit {a l m b : Str} {ta : List Token} (ha : LinesOf a ta) (hl : OneStatement l) (hm : SomeStatements m)
    {nodes nodes' : Block} (h : tokenizeAndParse (a ++ '\n' :: (l ++ '\n' :: b)) = .ok (.ok nodes))
    (h' : tokenizeAndParse (a ++ '\n' :: (l ++ '\n' :: (m ++ '\n' :: b))) = .ok (.ok nodes')) :
    (mapBlock Token.unplaced nodes' = mapBlock Token.unplaced nodes ∧
        ∃ ts, tokenize (a ++ '\n' :: (l ++ '\n' :: b)) = .ok (.ok ts) ∧ [] ∈ (split ts).all) ∨
      Edited (ThenText l m) (mapBlock Token.unplaced nodes) (mapBlock Token.unplaced nodes') := by
  obtain ⟨tl, st, hl1, hl2, hl3⟩ := hl
  obtain ⟨tm, hm1, hm2⟩ := hm
  obtain ⟨ts, ts', i, sts, h1, h1', hi, hi', hsts, hr⟩ := ha.inserted hl1 hl2 hl3 hm1 hm2 h
  have hf : ∀ t : Token, (Token.unplaced t).tokenType.kind = t.tokenType.kind := fun _ => rfl
  obtain ⟨s, r, r', pre, post, h0, hpre, h6, h7, h8⟩ := hr.read hf (parse_of_tokenizeAndParse h1 h)
  rw [parse_of_tokenizeAndParse h1' h'] at h6
  obtain ⟨s', h9⟩ := parseStmts_ok_iff.1 h6.symm
  cases h7.det h9
  rcases h8.ok_inv with ⟨_, h, h10⟩ | ⟨_, h, h10⟩ | ⟨_, h, -⟩
  · refine .inl ⟨by rw [(Read.ok.inj h).1], ts, h1, ?_⟩
    obtain ⟨j, hj, he⟩ := hpre _ (edit_stop (PlainTokens.ne_nil (hr.plain.map hf)) h0 h10)
    have he := List.map_eq_nil_iff.1 he
    have hlt : i < (split ts).all.length := by
      apply Nat.lt_of_not_le
      intro hle
      obtain ⟨t, r, hp, -⟩ := hr.plain
      rw [stmt, List.getD_eq_getElem?_getD, List.getElem?_eq_none hle] at hp
      cases hp
    rw [stmt, List.getD_eq_getElem?_getD, List.getElem?_eq_getElem (by omega)] at he
    have he : (split ts).all[j]'(by omega) = [] := he
    rw [← he]
    exact List.getElem_mem _
  · cases h
    refine .inr (h10.mono fun x x' hw => ?_)
    have e : sts.map (List.map Token.unplaced) = (split tm).all.map (List.map Token.unplaced) := hsts
    rw [e, hi, hi'] at hw
    obtain ⟨g1, g2⟩ := hw
    cases g1.same
    obtain ⟨y, g3, g4⟩ := g2.program hf hm2
    refine ⟨?_, y, tokenizeAndParse_of hm1.1 g3, by rw [g4]⟩
    cases g1 with
    | alone g5 _ =>
      obtain ⟨z, rfl, g6⟩ := step_alone hf g5
      have ho := tokenizeAndParse_of hl1.1 (g6 _ (stmt_one hl2))
      exact .alone ho ho
    | misread g =>
      exact .misread hl1.1 hl1.1 (by rw [(stmt_one hl2).1]; exact g)
  · cases h

/-- **C80** Lines inserted in a source text after a statement, or deleted there: without positions, the trees are the
same, or they are except that the one has, right after the nodes of that statement, the nodes of the lines as a program
of their own, at any depth. -/
theorem C80_lines {a l m b : Str} {ta : List Token} (ha : LinesOf a ta) (hl : OneStatement l) (hm : SomeStatements m)
    {nodes nodes' : Block} (h : tokenizeAndParse (a ++ '\n' :: (l ++ '\n' :: b)) = .ok (.ok nodes))
    (h' : tokenizeAndParse (a ++ '\n' :: (l ++ '\n' :: (m ++ '\n' :: b))) = .ok (.ok nodes')) :
    mapBlock Token.unplaced nodes' = mapBlock Token.unplaced nodes ∨
      Edited (ThenText l m) (mapBlock Token.unplaced nodes) (mapBlock Token.unplaced nodes') :=
  (lines_edit ha hl hm h h').imp_left And.left

/-- **C80** If no statement of the source is empty, the nodes of the lines are there, unless they were dropped with a
construct that is in error. -/
theorem C80_lines_there {a l m b : Str} {ta ts : List Token} (ha : LinesOf a ta) (hl : OneStatement l)
    (hm : SomeStatements m) {nodes nodes' : Block}
    (h : tokenizeAndParse (a ++ '\n' :: (l ++ '\n' :: b)) = .ok (.ok nodes))
    (h' : tokenizeAndParse (a ++ '\n' :: (l ++ '\n' :: (m ++ '\n' :: b))) = .ok (.ok nodes'))
    (ht : tokenize (a ++ '\n' :: (l ++ '\n' :: b)) = .ok (.ok ts)) (hs : [] ∉ (split ts).all) :
    Edited (ThenText l m) (mapBlock Token.unplaced nodes) (mapBlock Token.unplaced nodes') := by
  refine (lines_edit ha hl hm h h').resolve_left ?_
  rintro ⟨-, ts', h1, h2⟩
  rw [ht] at h1
  cases h1
  exact hs h2

-- Two lines in a loop, after a line that is in error.
example : (∃ ta, LinesOf chars!"IM IN YR l" ta) ∧ OneStatement chars!"VISIBLE AN" ∧
    SomeStatements chars!"  x R 1 BTW one\n  GTFO" ∧
    (∃ x x', tokenizeAndParse (chars!"IM IN YR l" ++ '\n' :: (chars!"VISIBLE AN" ++ '\n' :: chars!"IM OUTTA YR l")) =
        .ok (.ok x) ∧
      tokenizeAndParse (chars!"IM IN YR l" ++ '\n' :: (chars!"VISIBLE AN" ++ '\n' ::
        (chars!"  x R 1 BTW one\n  GTFO" ++ '\n' :: chars!"IM OUTTA YR l"))) = .ok (.ok x')) := by
  refine ⟨⟨_, rfl, by decide +kernel⟩, ⟨_, _, ⟨rfl, by decide +kernel⟩, rfl, _, _, rfl, by decide +kernel⟩,
    ⟨_, ⟨rfl, by decide +kernel⟩, ?_⟩, _, _, rfl, rfl⟩
  intro q hq
  rcases List.mem_cons.1 hq with rfl | hq
  · exact ⟨_, _, rfl, by decide +kernel⟩
  · rcases List.mem_cons.1 hq with rfl | hq
    · exact ⟨_, _, rfl, by decide +kernel⟩
    · cases hq

/-- **C80** Inserting lines that are parsed as a program of their own never makes the source fail. -/
theorem C80_no_fail {a l m b : Str} {ta : List Token} (ha : LinesOf a ta) (hl : OneStatement l) (hm : SomeStatements m)
    {nodes y : Block} (h : tokenizeAndParse (a ++ '\n' :: (l ++ '\n' :: b)) = .ok (.ok nodes))
    (hy : tokenizeAndParse (m ++ ['\n']) = .ok (.ok y)) :
    ∃ nodes', tokenizeAndParse (a ++ '\n' :: (l ++ '\n' :: (m ++ '\n' :: b))) = .ok (.ok nodes') := by
  obtain ⟨tl, st, hl1, hl2, hl3⟩ := hl
  obtain ⟨tm, hm1, hm2⟩ := hm
  obtain ⟨ts, ts', i, sts, h1, h1', hi, hi', hsts, hr⟩ := ha.inserted hl1 hl2 hl3 hm1 hm2 h
  have hf : ∀ t : Token, (Token.unplaced t).tokenType.kind = t.tokenType.kind := fun _ => rfl
  cases hp : parse ts' with
  | ok nodes' => exact ⟨nodes', tokenizeAndParse_of h1' hp⟩
  | panic p =>
    exfalso
    obtain ⟨s, r, r', pre, post, -, -, h6, h7, h8⟩ := hr.read hf (parse_of_tokenizeAndParse h1 h)
    rw [hp] at h6
    cases h7.det (parseStmts_panic_iff.1 h6.symm)
    rcases h8.ok_inv with ⟨_, h, -⟩ | ⟨_, h, -⟩ | ⟨_, h, q, hq, h10⟩
    · cases h
    · cases h
    · cases h
      rcases hq with ⟨hq, -⟩ | ⟨rfl, x, hx⟩
      · have e : sts.map (List.map Token.unplaced) = (split tm).all.map (List.map Token.unplaced) := hsts
        rw [e] at hq
        exact Runs.total hf (parse_of_tokenizeAndParse hm1.1 hy) hm2 q hq p h10
      · rw [hi] at hx
        rw [hi'] at h10
        cases (hx []).det (h10 [])
  | outOfFuel => exact absurd hp (C20_terminates ts')

-- Two lines in a loop, after a line that is in error.
example : (∃ ta, LinesOf chars!"IM IN YR l" ta) ∧ OneStatement chars!"VISIBLE AN" ∧
    SomeStatements chars!"  x R 1 BTW one\n  GTFO" ∧
    (∃ x x' y, tokenizeAndParse (chars!"IM IN YR l" ++ '\n' :: (chars!"VISIBLE AN" ++ '\n' :: chars!"IM OUTTA YR l")) =
        .ok (.ok x) ∧
      tokenizeAndParse (chars!"IM IN YR l" ++ '\n' :: (chars!"VISIBLE AN" ++ '\n' ::
        (chars!"  x R 1 BTW one\n  GTFO" ++ '\n' :: chars!"IM OUTTA YR l"))) = .ok (.ok x') ∧
      tokenizeAndParse (chars!"  x R 1 BTW one\n  GTFO" ++ ['\n']) = .ok (.ok y)) := by
  refine ⟨⟨_, rfl, by decide +kernel⟩, ⟨_, _, ⟨rfl, by decide +kernel⟩, rfl, _, _, rfl, by decide +kernel⟩,
    ⟨_, ⟨rfl, by decide +kernel⟩, ?_⟩, _, _, _, rfl, rfl, rfl⟩
  intro q hq
  rcases List.mem_cons.1 hq with rfl | hq
  · exact ⟨_, _, rfl, by decide +kernel⟩
  · rcases List.mem_cons.1 hq with rfl | hq
    · exact ⟨_, _, rfl, by decide +kernel⟩
    · cases hq

/-- **C80** So the list of the errors (without positions) stays as it is, or gets the errors of the inserted lines, those
that they have as a program of their own, at one place. -/
theorem C80_errors {a l m b : Str} {ta : List Token} (ha : LinesOf a ta) (hl : OneStatement l) (hm : SomeStatements m)
    {nodes nodes' y : Block} (h : tokenizeAndParse (a ++ '\n' :: (l ++ '\n' :: b)) = .ok (.ok nodes))
    (h' : tokenizeAndParse (a ++ '\n' :: (l ++ '\n' :: (m ++ '\n' :: b))) = .ok (.ok nodes'))
    (hy : tokenizeAndParse (m ++ ['\n']) = .ok (.ok y)) :
    (errorsBlock nodes').map (ASTError.map Token.unplaced) = (errorsBlock nodes).map (ASTError.map Token.unplaced) ∨
      ∃ p q, (errorsBlock nodes).map (ASTError.map Token.unplaced) = p ++ q ∧
        (errorsBlock nodes').map (ASTError.map Token.unplaced) =
          p ++ ((errorsBlock y).map (ASTError.map Token.unplaced) ++ q) := by
  rw [← errorsBlock_map, ← errorsBlock_map, ← errorsBlock_map]
  rcases C80_lines ha hl hm h h' with h1 | h1
  · exact .inl (by rw [h1])
  · rcases h1.errors with ⟨-, h1⟩ | ⟨p, q, x, x', ⟨-, y', h2, rfl⟩, h3, h4⟩
    · exact .inl (by rw [h1])
    · rw [hy] at h2
      cases h2
      rw [errorsBlock_append] at h4
      exact .inr ⟨p ++ errorsBlock x, q, by rw [h3, List.append_assoc], by rw [h4]; simp⟩

-- A line with an error after one with an error, in a loop (see above for the hypotheses).
example : ∃ nodes nodes' y, tokenizeAndParse chars!"IM IN YR l\nVISIBLE AN\nIM OUTTA YR l" = .ok (.ok nodes) ∧
    tokenizeAndParse chars!"IM IN YR l\nVISIBLE AN\nGTFO x\nIM OUTTA YR l" = .ok (.ok nodes') ∧
    tokenizeAndParse chars!"GTFO x\n" = .ok (.ok y) ∧
    (errorsBlock nodes).length = 1 ∧ (errorsBlock nodes').length = 2 ∧ (errorsBlock y).length = 1 := by
  refine ⟨_, _, _, rfl, rfl, rfl, ?_⟩
  decide +kernel

/-- **C80** Lines without errors of their own can be inserted in a program without errors, and deleted in one: it has
errors with them exactly if it has errors without them. -/
theorem C80_error_free {a l m b : Str} {ta : List Token} (ha : LinesOf a ta) (hl : OneStatement l)
    (hm : SomeStatements m) {nodes nodes' y : Block}
    (h : tokenizeAndParse (a ++ '\n' :: (l ++ '\n' :: b)) = .ok (.ok nodes))
    (h' : tokenizeAndParse (a ++ '\n' :: (l ++ '\n' :: (m ++ '\n' :: b))) = .ok (.ok nodes'))
    (hy : tokenizeAndParse (m ++ ['\n']) = .ok (.ok y)) (hye : errorFreeBlock y) :
    errorFreeBlock nodes' ↔ errorFreeBlock nodes := by
  rw [errorFreeBlock_errors, errorFreeBlock_errors]
  have hz := (errorFreeBlock_errors y).1 hye
  have hk : (errorsBlock nodes').map (ASTError.map Token.unplaced) =
      (errorsBlock nodes).map (ASTError.map Token.unplaced) := by
    rcases C80_errors ha hl hm h h' hy with h1 | ⟨p, q, h1, h2⟩
    · exact h1
    · rw [h1, h2, hz]; rfl
  constructor <;> intro h3 <;> rw [h3] at hk
  · exact List.map_eq_nil_iff.1 hk.symm
  · exact List.map_eq_nil_iff.1 hk

-- Two lines after `GTFO` in a loop.
example : SomeStatements chars!"x R 1\nGTFO" ∧
    (∃ x x', tokenizeAndParse (chars!"IM IN YR l" ++ '\n' :: (chars!"GTFO" ++ '\n' :: chars!"IM OUTTA YR l")) =
        .ok (.ok x) ∧
      tokenizeAndParse (chars!"IM IN YR l" ++ '\n' :: (chars!"GTFO" ++ '\n' ::
        (chars!"x R 1\nGTFO" ++ '\n' :: chars!"IM OUTTA YR l"))) = .ok (.ok x')) ∧
    ∃ y, tokenizeAndParse (chars!"x R 1\nGTFO" ++ ['\n']) = .ok (.ok y) ∧ errorFreeBlock y := by
  refine ⟨⟨_, ⟨rfl, by decide +kernel⟩, ?_⟩, ⟨_, _, rfl, rfl⟩, _, rfl, ?_⟩
  · intro q hq
    rcases List.mem_cons.1 hq with rfl | hq
    · exact ⟨_, _, rfl, by decide +kernel⟩
    · rcases List.mem_cons.1 hq with rfl | hq
      · exact ⟨_, _, rfl, by decide +kernel⟩
      · cases hq
  · simp [errorFreeBlock, Node.ErrorFree]

end Lol
