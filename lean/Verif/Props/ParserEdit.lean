import Verif.Parser.EditLemmas
import Verif.Props.ParserFlat
import Verif.Props.SourceText

/-!
# Properties of `parse` on programs that differ in one statement (C68)
-/

namespace Lol

/-- A statement whose first token opens no block, is not `HAI`, ends no block and opens no part of a construct. -/
def Plain (st : List Token) : Prop :=
  ∃ t r, st = t :: r ∧ (∀ k ∈ blockKeywords, ¬ t.Is k) ∧ ∀ k ∈ partKeywords, ¬ t.Is k

/-- The nodes of the statements `st` and `st'`: what each gives alone, or the errors of a statement whose tokens are
not read as a statement. -/
inductive Own (st st' : List Token) : Block → Block → Prop
  | alone {x x' : Block} : (∀ one, Alone one st → parse one = .ok x) → (∀ one, Alone one st' → parse one = .ok x') →
      Own st st' x x'
  | misread {x x' : Block} : Misread st st' x x' → Own st st' x x'

theorem parse_around (tokens : List Token) (i n : Nat) (hn : (split tokens).all.length ≤ n) :
    parse tokens = parseStmts (.of ((List.range i).map (stmt tokens) ++
      stmt tokens i :: (List.range n).map fun k => stmt tokens (i + 1 + k))) := by
  rw [parse_eq]
  apply parseStmts_congr
  intro k
  have ha : ∀ l : List (List Token), l ≠ [] → (Stmts.of l).all = l := by
    intro l hl
    cases l with
    | nil => exact absurd rfl hl
    | cons a l => rfl
  rw [ha _ (by simp)]
  have hs : ∀ k, stmt tokens k = (split tokens).all.getD k [] := fun _ => rfl
  rw [← hs]
  by_cases h1 : k < i
  · simp [List.getD_eq_getElem?_getD, List.getElem?_append, h1]
  · obtain ⟨j, rfl⟩ : ∃ j, k = i + j := ⟨k - i, by omega⟩
    cases j with
    | zero => simp [List.getD_eq_getElem?_getD, List.getElem?_append]
    | succ j =>
      by_cases h2 : j < n
      · have : i + 1 + j = i + (j + 1) := by omega
        simp [List.getD_eq_getElem?_getD, List.getElem?_append, h2, this]
      · rw [hs]
        simp [List.getD_eq_getElem?_getD, List.getElem?_append, h2,
          List.getElem?_eq_none (show (split tokens).all.length ≤ i + (j + 1) by omega)]

theorem parse_step {st : List Token} {x : Block} (h : ∀ l, StepR ⟨st, l⟩ (.ok x (.of l))) {one : List Token}
    (h1 : Alone one st) : parse one = .ok x := by
  rw [parse_alone h1]
  exact parseStmts_ok_iff.2 ⟨_, .last (h []) (.inl rfl)⟩

theorem own_of {st st' : List Token} {x x' : Block} (h : OwnR st st' [] x x') : Own st st' x x' := by
  cases h.first with
  | alone ha hb => exact .alone (fun _ h => parse_step ha h) (fun _ h => parse_step hb h)
  | misread h => exact .misread h

/-- The two programs around the statement that differs. -/
theorem edit_block {tokens tokens' : List Token} {i : Nat} (h1 : Plain (stmt tokens i)) (h2 : Plain (stmt tokens' i))
    (h3 : ∀ j, j ≠ i → stmt tokens' j = stmt tokens j) {nodes : Block} (h4 : parse tokens = .ok nodes) :
    ∃ s s' r post, BlockR [] (.of ((List.range i).map (stmt tokens) ++ stmt tokens i :: post)) (.ok nodes s) ∧
      BlockR [] s' r ∧ parse tokens' = parseStmts s' ∧
      RelRead (stmt tokens i) (stmt tokens' i) [] post (Edited (OwnR (stmt tokens i) (stmt tokens' i) []))
        (.ok nodes s) r := by
  rw [parse_around tokens i ((split tokens).all.length + (split tokens').all.length) (by omega)] at h4
  have h5 := parse_around tokens' i ((split tokens).all.length + (split tokens').all.length) (by omega)
  have e1 : (List.range i).map (stmt tokens') = (List.range i).map (stmt tokens) := by
    apply List.map_congr_left
    intro j hj
    exact h3 j (by have := List.mem_range.1 hj; omega)
  have e2 : (fun k => stmt tokens' (i + 1 + k)) = fun k => stmt tokens (i + 1 + k) :=
    funext fun k => h3 _ (by omega)
  rw [e1, e2] at h5
  obtain ⟨s, h6⟩ := parseStmts_ok_iff.1 h4
  obtain ⟨r, h7, h8⟩ := h6.edit (ps := []) h1 h2 (by simp) (by simp) (by simp) _ (near_of _)
  exact ⟨_, _, _, _, h6, h7, h5, h8⟩

/-- The root block is read up to an empty statement. -/
theorem edit_stop {pre post : List (List Token)} {st st' : List Token} {nodes : Block} {s s' : Stmts} (hst : st ≠ [])
    (h : BlockR [] (.of (pre ++ st :: post)) (.ok nodes s)) {ps : List (List Token)} (hn : Near st st' ps post s s') : [] ∈ pre := by
  have hs : s.cur = [] := by
    rcases h.stop _ _ rfl with h | ⟨_, _, _, _, h, _⟩
    · exact h
    · cases h
  have hle : s.Le _ := h.le
  have ha : (Stmts.of (pre ++ st :: post)).all = pre ++ st :: post := by cases pre <;> rfl
  rcases hn.inv with ⟨pre', h1, -⟩ | ⟨rfl, -⟩
  · have h2 := hle s.all (by simp [Stmts.all, h1]) (List.suffix_refl _)
    rw [ha] at h2
    simp only [Stmts.all, hs, h1] at h2
    obtain ⟨a, h2⟩ := h2
    have h3 := (List.append_inj_left' (s₁ := a ++ [] :: pre') (t₁ := st :: post) (by simpa using h2) rfl)
    rw [← h3]
    simp
  · exact absurd hs hst

/-- For the examples. -/
theorem others_of_split {tokens tokens' : List Token} {i : Nat}
    (h : (split tokens').all = (split tokens).all.set i (stmt tokens' i)) :
    ∀ j, j ≠ i → stmt tokens' j = stmt tokens j := by
  intro j hj
  have hs : ∀ (tokens : List Token) k, stmt tokens k = (split tokens).all.getD k [] := fun _ _ => rfl
  rw [hs tokens' j, h, hs tokens j, List.getD_eq_getElem?_getD, List.getElem?_set_ne (Ne.symm hj),
    ← List.getD_eq_getElem?_getD]

/-! ## C68: changing one statement -/

/-- **C68** Changing one statement of any program, also one deep inside loops, functions, cases and branches, changes
only its own nodes: the trees are the same, or they are except that the one has the nodes of the old statement where
the other has those of the new one. -/
theorem C68_change (tokens tokens' : List Token) (i : Nat)
    (h1 : Plain (stmt tokens i)) (h2 : Plain (stmt tokens' i))
    (h3 : ∀ j, j ≠ i → stmt tokens' j = stmt tokens j)
    {nodes nodes' : Block} (h4 : parse tokens = .ok nodes) (h5 : parse tokens' = .ok nodes') :
    nodes' = nodes ∨ Edited (Own (stmt tokens i) (stmt tokens' i)) nodes nodes' := by
  obtain ⟨s, s', r, post, -, h6, h7, h8⟩ := edit_block h1 h2 h3 h4
  rw [h7] at h5
  obtain ⟨s'', h9⟩ := parseStmts_ok_iff.1 h5
  cases h6.det h9
  rcases h8.ok_inv with ⟨_, h, -⟩ | ⟨_, h, h10⟩ | ⟨_, h, -⟩
  · cases h
    exact .inl rfl
  · cases h
    exact .inr (h10.mono fun _ _ => own_of)
  · cases h

-- The statement after the end of a switch is taken with it (`TooManyTokens`), in a loop; changing it changes that.
example : ∃ tokens tokens',
    tokenize chars!"IM IN YR l\nWTF?\nOMG 1\nGTFO\nOIC\nVISIBLE a\nIM OUTTA YR l" = .ok (.ok tokens) ∧
    tokenize chars!"IM IN YR l\nWTF?\nOMG 1\nGTFO\nOIC\nGIMMEH   \nIM OUTTA YR l" = .ok (.ok tokens') ∧
    Plain (stmt tokens 5) ∧ Plain (stmt tokens' 5) ∧ (∀ j, j ≠ 5 → stmt tokens' j = stmt tokens j) ∧
    (match parse tokens, parse tokens' with
      | .ok [.imInYr _ _ _ _ [.wtf .., .astError (.tooManyTokens [_, _])] _],
        .ok [.imInYr _ _ _ _ [.wtf .., .astError (.tooManyTokens [_])] _] => True
      | _, _ => False) := by
  refine ⟨_, _, rfl, rfl, ⟨_, _, rfl, by decide +kernel⟩, ⟨_, _, rfl, by decide +kernel⟩,
    others_of_split (by decide +kernel), ?_⟩
  exact trivial

-- The first token of the statement stands where `OIC` was expected.
example : ∃ tokens tokens', tokenize chars!"O RLY?\nGIMMEH a   \nGTFO" = .ok (.ok tokens) ∧
    tokenize chars!"O RLY?\nVISIBLE a b\nGTFO" = .ok (.ok tokens') ∧
    Plain (stmt tokens 1) ∧ Plain (stmt tokens' 1) ∧ (∀ j, j ≠ 1 → stmt tokens' j = stmt tokens j) ∧
    (match parse tokens, parse tokens' with
      | .ok [.astError (.unexpectedToken _), .astError (.tooManyTokens [_]), .gtfo _],
        .ok [.astError (.unexpectedToken _), .astError (.tooManyTokens [_, _]), .gtfo _] => True
      | _, _ => False) := by
  refine ⟨_, _, rfl, rfl, ⟨_, _, rfl, by decide +kernel⟩, ⟨_, _, rfl, by decide +kernel⟩,
    others_of_split (by decide +kernel), ?_⟩
  exact trivial

/-- **C68** If there is no empty statement before the changed one, then its nodes are in the tree, unless they were
dropped with a construct that is in error. -/
theorem C68_there (tokens tokens' : List Token) (i : Nat)
    (h1 : Plain (stmt tokens i)) (h2 : Plain (stmt tokens' i))
    (h3 : ∀ j, j ≠ i → stmt tokens' j = stmt tokens j)
    {nodes nodes' : Block} (h4 : parse tokens = .ok nodes) (h5 : parse tokens' = .ok nodes')
    (h : ∀ j, j < i → stmt tokens j ≠ []) :
    Edited (Own (stmt tokens i) (stmt tokens' i)) nodes nodes' := by
  obtain ⟨s, s', r, post, h0, h6, h7, h8⟩ := edit_block h1 h2 h3 h4
  rw [h7] at h5
  obtain ⟨s'', h9⟩ := parseStmts_ok_iff.1 h5
  cases h6.det h9
  rcases h8.ok_inv with ⟨_, _, h10⟩ | ⟨_, h, h10⟩ | ⟨_, h, -⟩
  · obtain ⟨j, hj, he⟩ := List.mem_map.1 (edit_stop (PlainTokens.ne_nil h1) h0 h10)
    exact absurd he (h j (List.mem_range.1 hj))
  · cases h
    exact h10.mono fun _ _ => own_of
  · cases h

-- A statement in a loop in a branch.
example : ∃ tokens tokens',
    tokenize chars!"O RLY?\nYA RLY\nIM IN YR l\nVISIBLE a \nIM OUTTA YR l\nOIC\nGTFO" = .ok (.ok tokens) ∧
    tokenize chars!"O RLY?\nYA RLY\nIM IN YR l\nGIMMEH a b\nIM OUTTA YR l\nOIC\nGTFO" = .ok (.ok tokens') ∧
    Plain (stmt tokens 3) ∧ Plain (stmt tokens' 3) ∧ (∀ j, j ≠ 3 → stmt tokens' j = stmt tokens j) ∧
    (∀ j, j < 3 → stmt tokens j ≠ []) ∧
    (match parse tokens, parse tokens' with
      | .ok [.oRly _ (some (.mk _ [.imInYr _ _ _ _ [.visible _] _])) none [], .gtfo _],
        .ok [.oRly _ (some (.mk _ [.imInYr _ _ _ _ [.gimmeh _, .astError (.tooManyTokens _)] _])) none [], .gtfo _] =>
          True
      | _, _ => False) := by
  refine ⟨_, _, rfl, rfl, ⟨_, _, rfl, by decide +kernel⟩, ⟨_, _, rfl, by decide +kernel⟩,
    others_of_split (by decide +kernel), by decide +kernel, ?_⟩
  exact trivial

-- A statement that is dropped with the loop that has no end.
example : ∃ tokens tokens', tokenize chars!"IM IN YR l\nVISIBLE a\nGTFO" = .ok (.ok tokens) ∧
    tokenize chars!"IM IN YR l\nGIMMEH  a\nGTFO" = .ok (.ok tokens') ∧
    Plain (stmt tokens 1) ∧ Plain (stmt tokens' 1) ∧ (∀ j, j ≠ 1 → stmt tokens' j = stmt tokens j) ∧
    (∀ j, j < 1 → stmt tokens j ≠ []) ∧
    (match parse tokens, parse tokens' with
      | .ok [.astError _], .ok [.astError _] => True
      | _, _ => False) := by
  refine ⟨_, _, rfl, rfl, ⟨_, _, rfl, by decide +kernel⟩, ⟨_, _, rfl, by decide +kernel⟩,
    others_of_split (by decide +kernel), by decide +kernel, ?_⟩
  exact trivial

/-- **C68** Changing one statement makes the parser panic only if the new statement does so alone. -/
theorem C68_panic (tokens tokens' : List Token) (i : Nat)
    (h1 : Plain (stmt tokens i)) (h2 : Plain (stmt tokens' i))
    (h3 : ∀ j, j ≠ i → stmt tokens' j = stmt tokens j)
    {nodes : Block} (h4 : parse tokens = .ok nodes) {p : PanicSite} (h5 : parse tokens' = .panic p) :
    ∀ one, Alone one (stmt tokens' i) → parse one = .panic p := by
  obtain ⟨s, s', r, post, -, h6, h7, h8⟩ := edit_block h1 h2 h3 h4
  rw [h7] at h5
  cases h6.det (parseStmts_panic_iff.1 h5)
  intro one h9
  rw [parse_alone h9]
  rcases h8.ok_inv with ⟨_, h, -⟩ | ⟨_, h, -⟩ | ⟨q, h, _, hq, h10⟩
  · cases h
  · cases h
  · cases h
    cases List.mem_singleton.1 hq.mem
    exact parseStmts_panic_iff.2 (.panic (h10 []))

-- The new statement in the loop has a cast.
example : ∃ tokens tokens', tokenize chars!"IM IN YR l\nVISIBLE      a\nIM OUTTA YR l" = .ok (.ok tokens) ∧
    tokenize chars!"IM IN YR l\nVISIBLE MAEK a\nIM OUTTA YR l" = .ok (.ok tokens') ∧
    Plain (stmt tokens 1) ∧ Plain (stmt tokens' 1) ∧ (∀ j, j ≠ 1 → stmt tokens' j = stmt tokens j) ∧
    (match parse tokens, parse tokens' with
      | .ok [.imInYr ..], .panic .todoMaek => True
      | _, _ => False) := by
  refine ⟨_, _, rfl, rfl, ⟨_, _, rfl, by decide +kernel⟩, ⟨_, _, rfl, by decide +kernel⟩,
    others_of_split (by decide +kernel), ?_⟩
  exact trivial

/-! ## C68: up to positions -/

/-- The nodes of the statements `st` and `st'` with the tokens replaced by `f`. -/
inductive OwnUpTo (f : Token → Token) (st st' : List Token) : Block → Block → Prop
  | alone {x x' : Block} : (∀ one, Alone one st → parse one = .ok x) → (∀ one, Alone one st' → parse one = .ok x') →
      OwnUpTo f st st' (mapBlock f x) (mapBlock f x')
  | misread {x x' : Block} : Misread (st.map f) (st'.map f) x x' → OwnUpTo f st st' x x'

theorem Stmts.map_of (f : Token → Token) (l : List (List Token)) :
    (Stmts.of l).map f = .of (l.map (List.map f)) := by
  cases l <;> rfl

theorem Plain.map {f : Token → Token} (hf : ∀ t, (f t).tokenType.kind = t.tokenType.kind) {st : List Token}
    (h : Plain st) : PlainTokens (st.map f) := by
  obtain ⟨t, r, rfl, h1, h2⟩ := h
  exact ⟨f t, r.map f, rfl, fun k hk h => h1 k hk ((KeepsKind.typeEq hf t (.inl ⟨k, rfl⟩)).1 h),
    fun k hk h => h2 k hk ((KeepsKind.typeEq hf t (.inl ⟨k, rfl⟩)).1 h)⟩

theorem ownUpTo_of {f : Token → Token} (hf : ∀ t, (f t).tokenType.kind = t.tokenType.kind) {st st' : List Token}
    {x x' : Block} (h : OwnR (st.map f) (st'.map f) [] x x') : OwnUpTo f st st' x x' := by
  have key : ∀ {st : List Token} {x : Block}, (∀ l, StepR ⟨st.map f, l⟩ (.ok x (.of l))) →
      ∃ y, mapBlock f y = x ∧ ∀ one, Alone one st → parse one = .ok y := by
    intro st x h
    have h1 : parseStmts (Stmts.map f ⟨st, []⟩) = .ok x := parseStmts_ok_iff.2 ⟨_, .last (h []) (.inl rfl)⟩
    rw [parseStmts_map hf] at h1
    cases h2 : parseStmts ⟨st, []⟩ with
    | ok y =>
      rw [h2] at h1
      exact ⟨y, Out.ok.inj h1, fun one ho => by rw [parse_alone ho, h2]⟩
    | panic p => rw [h2] at h1; cases h1
    | outOfFuel => rw [h2] at h1; cases h1
  cases h.first with
  | alone ha hb =>
    obtain ⟨y, rfl, h1⟩ := key ha
    obtain ⟨y', rfl, h2⟩ := key hb
    exact .alone h1 h2
  | misread h => exact .misread h

/-- For the example. -/
theorem others_of_split_map {f : Token → Token} {tokens tokens' : List Token} {i : Nat}
    (h : (split tokens').all.map (List.map f) = ((split tokens).all.map (List.map f)).set i ((stmt tokens' i).map f)) :
    ∀ j, j ≠ i → (stmt tokens' j).map f = (stmt tokens j).map f := by
  intro j hj
  have hs : ∀ (tokens : List Token) k,
      (stmt tokens k).map f = (((split tokens).all.map (List.map f))[k]?).getD [] := by
    intro tokens k
    rw [stmt, List.getD_eq_getElem?_getD, List.getElem?_map]
    cases (split tokens).all[k]? <;> rfl
  rw [hs tokens' j, h, hs tokens j, List.getElem?_set_ne (Ne.symm hj)]

/-- **C68** The same up to a replacement of tokens that keeps their kinds. With `Token.unplaced`, which removes the
positions, this is a change in the source: the other statements are the same, but those after the changed one may be
at other positions. -/
theorem C68_up_to {f : Token → Token} (hf : ∀ t, (f t).tokenType.kind = t.tokenType.kind)
    (tokens tokens' : List Token) (i : Nat) (h1 : Plain (stmt tokens i)) (h2 : Plain (stmt tokens' i))
    (h3 : ∀ j, j ≠ i → (stmt tokens' j).map f = (stmt tokens j).map f)
    {nodes nodes' : Block} (h4 : parse tokens = .ok nodes) (h5 : parse tokens' = .ok nodes') :
    mapBlock f nodes' = mapBlock f nodes ∨
      Edited (OwnUpTo f (stmt tokens i) (stmt tokens' i)) (mapBlock f nodes) (mapBlock f nodes') := by
  have a4 := congrArg (mapOutcome f) h4
  have a5 := congrArg (mapOutcome f) h5
  rw [parse_around tokens i ((split tokens).all.length + (split tokens').all.length) (by omega),
    ← parseStmts_map hf, Stmts.map_of] at a4
  rw [parse_around tokens' i ((split tokens).all.length + (split tokens').all.length) (by omega),
    ← parseStmts_map hf, Stmts.map_of] at a5
  simp only [List.map_append, List.map_cons, List.map_map] at a4 a5
  have e1 : (List.range i).map (List.map f ∘ stmt tokens') = (List.range i).map (List.map f ∘ stmt tokens) := by
    apply List.map_congr_left
    intro j hj
    exact h3 j (by have := List.mem_range.1 hj; omega)
  have e2 : (List.map f ∘ fun k => stmt tokens' (i + 1 + k)) = List.map f ∘ fun k => stmt tokens (i + 1 + k) :=
    funext fun k => h3 _ (by omega)
  rw [e1, e2] at a5
  obtain ⟨s, h6⟩ := parseStmts_ok_iff.1 a4
  obtain ⟨s', h9⟩ := parseStmts_ok_iff.1 a5
  obtain ⟨r, h7, h8⟩ := h6.edit (ps := []) (h1.map hf) (h2.map hf) (by simp) (by simp) (by simp) _ (near_of _)
  cases h7.det h9
  rcases h8.ok_inv with ⟨_, h, -⟩ | ⟨_, h, h10⟩ | ⟨_, h, -⟩
  · rw [(Read.ok.inj h).1]
    exact .inl rfl
  · cases h
    exact .inr (h10.mono fun _ _ => ownUpTo_of hf)
  · cases h

-- A longer statement on the second line, so that the tokens of the others have other positions.
example : ∃ tokens tokens',
    tokenize chars!"IM IN YR l\nVISIBLE a\nIM OUTTA YR l" = .ok (.ok tokens) ∧
    tokenize chars!"IM IN YR l\nVISIBLE SUM OF a AN c...\n b\nIM OUTTA YR l" = .ok (.ok tokens') ∧
    Plain (stmt tokens 1) ∧ Plain (stmt tokens' 1) ∧
    (∀ j, j ≠ 1 → (stmt tokens' j).map Token.unplaced = (stmt tokens j).map Token.unplaced) ∧
    stmt tokens' 2 ≠ stmt tokens 2 ∧
    (match parse tokens, parse tokens' with
      | .ok [.imInYr _ _ _ _ [.visible _] _], .ok [.imInYr _ _ _ _ [.visible _] _] => True
      | _, _ => False) := by
  refine ⟨_, _, rfl, rfl, ⟨_, _, rfl, by decide +kernel⟩, ⟨_, _, rfl, by decide +kernel⟩,
    others_of_split_map (by decide +kernel), by decide +kernel, ?_⟩
  exact trivial

end Lol
