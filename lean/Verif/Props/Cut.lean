import Verif.Parser.CutLemmas
import Verif.Props.Layout
import Verif.Props.ParserEdit
import Verif.Props.ParserStatements

/-! # Properties of `tokenize` and `parse`: parts cut out of a source text (C72) -/

namespace Lol

/-! ## C72 -/

/-- **C72** If the text of some tokens of a source is cut out, with a newline after it, it has just these tokens, at
the places where they stand in the part. -/
theorem C72_tokens {code txt : Str} {a mid c : List Token} (h : tokenize code = .ok (.ok (a ++ (mid ++ c))))
    (ht : TextOf code mid txt) (hm : ∀ t ∈ mid, t.Movable) :
    ∃ ts first, tokenize (txt ++ ['\n']) = .ok (.ok ts) ∧ mid.head? = some first ∧
      ts.map (fun t => (t.tokenType, t.range.start.bytes, t.range.stop.bytes, t.range.start.line)) =
        mid.map (fun t => (t.tokenType, t.range.start.bytes - first.range.start.bytes,
          t.range.stop.bytes - first.range.start.bytes, t.range.start.line - (first.range.start.line - 1))) := by
  obtain ⟨pre, post, first, last, hcode, hf, hla, hpre, htxt⟩ := ht
  obtain ⟨q, hq⟩ := tokenize_scan h
  obtain ⟨ps, tail, h1, h2, h3⟩ := hq.pieces
  obtain ⟨pa, pr, l1, rfl, -, h4⟩ := h3.append_inv
  obtain ⟨pm, pc, l2, rfl, h5, -⟩ := h4.append_inv
  have hl : Lexed (pm ++ pc) tail := h2.suffix
  have hcut := (hl.cut (h5.movable hl hm)).flush
  obtain ⟨ts, q', g1, g2⟩ := hcut.scan .first
  have hlast := h5.last hla
  cases mid with
  | nil => cases hf
  | cons t mid =>
    cases hf
    cases pm with
    | nil => simp [TokensAt] at h5
    | cons p pm =>
      have e0 : (Position.first.bytes : Int) = 0 := rfl
      have e1 : first.range.start.bytes = utf8Len (layout pa [] ++ p.gap) := by
        rw [h5.2.1, utf8Len_append, e0]; omega
      have e2 : pre = layout pa [] ++ p.gap ∧ txt ++ post = p.lex ++ layout (pm ++ pc) tail := by
        apply append_inj_utf8
        · rw [← hcode, h1]; simp [layout_append pa, layout]
        · omega
      obtain ⟨rfl, e2⟩ := e2
      have e3 : txt = layout (flush (p :: pm)) [] := by
        rw [layout_append, ← List.append_assoc] at e2
        refine (append_inj_utf8 e2 ?_).1
        rw [htxt, utf8Len_append (layout pa [] ++ p.gap)] at hlast
        simp only [utf8Len_append, layout, e0] at hlast ⊢
        omega
      refine ⟨ts, first, ?_, rfl, ?_⟩
      · rw [e3, ← layout_tail, tokenize_eq_run, run_scan g1, run_nil]
        simp [prepend]
      · refine TokensAt.shifted (ps := flush (p :: pm)) (o := first.range.start.bytes) (l := first.range.start.line)
          ?_ g2 (by rw [e0]; omega)
          (by show (1 : Int) = _; omega)
        obtain ⟨a1, a2, a3, a4, a5⟩ := h5
        refine ⟨a1, by simp, ?_, by simp, ?_⟩
        · rw [a3, a2]; simp [utf8Len_append]; omega
        · have : first.range.start.bytes + (utf8Len p.lex : Int) =
              Position.first.bytes + ↑(utf8Len (layout pa [])) + ↑(utf8Len (p.gap ++ p.lex)) := by
            rw [a2, utf8Len_append]; omega
          simpa [this, a4] using a5

/-- For the examples. -/
theorem movable_of {ts : List Token} (h : ∀ t ∈ ts, (match t.tokenType with
      | .value (.string s) => (s.all fun c => decide (IsAscii c)) &&
          decide (t.range.stop.bytes = t.range.start.bytes + s.length + 2)
      | .symbol [c] => decide (¬ IsDigit c ∧ c ≠ '+' ∧ c ≠ '-' ∧ c ≠ '.')
      | _ => true) = true) : ∀ t ∈ ts, t.Movable := by
  intro t ht
  have := h t ht
  constructor
  · intro s hs
    simp only [hs, Bool.and_eq_true, List.all_eq_true, decide_eq_true_eq] at this
    exact this
  · intro c hc
    simp only [hc, decide_eq_true_eq] at this
    exact this

-- a number, `AN`, a string and a comment out of a longer line
example : ∃ a mid c, tokenize chars!"HAI\n  VISIBLE SUM OF 12 AN\n\"b c\"  BTW d\nx" =
      .ok (.ok (a ++ (mid ++ c))) ∧ a.length = 3 ∧
    mid.map (·.tokenType) = [.value (.number (.int 12)), .keyword .AN, .value (.string chars!"b c"),
      .commentSingleLine chars!" d"] ∧ c.length = 1 ∧
    TextOf chars!"HAI\n  VISIBLE SUM OF 12 AN\n\"b c\"  BTW d\nx" mid chars!"12 AN\n\"b c\"  BTW d" ∧
    ∀ t ∈ mid, t.Movable := by
  obtain ⟨ts, h⟩ : ∃ ts, tokenize chars!"HAI\n  VISIBLE SUM OF 12 AN\n\"b c\"  BTW d\nx" = .ok (.ok ts) := ⟨_, rfl⟩
  refine ⟨ts.take 3, (ts.drop 3).take 4, (ts.drop 3).drop 4,
    by rw [List.take_append_drop, List.take_append_drop]; exact h, ?_⟩
  cases h
  refine ⟨by decide +kernel, by decide +kernel, by decide +kernel,
    ⟨chars!"HAI\n  VISIBLE SUM OF ", chars!"\nx", _, _, by decide +kernel, rfl, rfl, by decide +kernel,
      by decide +kernel⟩, movable_of (by decide +kernel)⟩

/-- **C72** Without the newline the last number is not found again. -/
theorem C72_newline : ∃ ts us, tokenize chars!"VISIBLE 1\n" = .ok (.ok ts) ∧
    TextOf chars!"VISIBLE 1\n" ts chars!"VISIBLE 1" ∧ (∀ t ∈ ts, t.Movable) ∧
    tokenize chars!"VISIBLE 1" = .ok (.ok us) ∧
    ts.map (·.tokenType) ≠ us.map (·.tokenType) := by
  refine ⟨_, _, rfl, ⟨[], chars!"\n", _, _, by decide +kernel, rfl, rfl, by decide +kernel, by decide +kernel⟩,
    movable_of (by decide +kernel), rfl, by decide +kernel⟩

theorem TextOf.same_ends {code txt : Str} {st mid : List Token} (h : TextOf code st txt)
    (h1 : mid.head? = st.head?) (h2 : mid.getLast? = st.getLast?) : TextOf code mid txt := by
  obtain ⟨pre, post, first, last, g⟩ := h
  exact ⟨pre, post, first, last, by rwa [h1, h2]⟩

/-- **C72** The text of a statement of a program is a program of this one statement. -/
theorem C72_statement {code txt : Str} {ts : List Token} (h : tokenize code = .ok (.ok ts)) (i : Nat)
    (ht : TextOf code (stmt ts i) txt) (hm : ∀ t ∈ stmt ts i, t.Movable) :
    ∃ us, tokenize (txt ++ ['\n']) = .ok (.ok us) ∧
      (stmt us 0).map (·.tokenType) = (stmt ts i).map (·.tokenType) ∧ ∀ k, stmt us (k + 1) = [] := by
  have hne : stmt ts i ≠ [] := by
    obtain ⟨_, _, first, _, _, h, _⟩ := ht
    intro he
    rw [he] at h
    cases h
  obtain ⟨a, mid, c, h1, h2, h3, h4⟩ := stmt_segment hne
  rw [h1] at h
  obtain ⟨us, first, g1, -, g3⟩ := C72_tokens h (ht.same_ends h2 h3) (movable_of_segment h4 hm)
  have hs := steps_of_shift g3 0
  have ha := alone_of_split h4
  refine ⟨us, g1, ?_, fun k => ?_⟩
  · rw [← stmt_steps hs 0, ha.1]
  · have := stmt_steps hs (k + 1)
    rw [ha.2] at this
    exact List.map_eq_nil_iff.1 this.symm

example : ∃ ts, tokenize chars!"HAI\n GTFO, x R 1 \n" = .ok (.ok ts) ∧
    TextOf chars!"HAI\n GTFO, x R 1 \n" (stmt ts 2) chars!"x R 1" ∧ ∀ t ∈ stmt ts 2, t.Movable :=
  ⟨_, rfl, ⟨chars!"HAI\n GTFO, ", chars!" \n", _, _, by decide +kernel, rfl, rfl, by decide +kernel,
    by decide +kernel⟩, movable_of (by decide +kernel)⟩

/-- **C72** It is parsed, up to positions, as the statement alone. -/
theorem C72_alone {code txt : Str} {ts : List Token} (h : tokenize code = .ok (.ok ts)) (i : Nat)
    (ht : TextOf code (stmt ts i) txt) (hm : ∀ t ∈ stmt ts i, t.Movable) :
    ∃ us, tokenize (txt ++ ['\n']) = .ok (.ok us) ∧ ∀ one, Alone one (stmt ts i) →
      mapOutcome Token.unplaced (parse us) = mapOutcome Token.unplaced (parse one) := by
  obtain ⟨us, h1, h2, h3⟩ := C72_statement h i ht hm
  refine ⟨us, h1, fun one ho => ?_⟩
  refine C55_same (f := Token.unplaced) (fun _ => rfl) fun k => ?_
  have hu : ∀ vs : List Token, vs.map Token.unplaced = (vs.map (·.tokenType)).map fun ty =>
      (⟨ty, ⟨⟨0, 0, 0, 0⟩, ⟨0, 0, 0, 0⟩⟩⟩ : Token) := by
    intro vs
    simp [Token.unplaced]
  cases k with
  | zero => rw [hu, hu, ho.1, h2]
  | succ k => rw [h3, ho.2]

-- the second statement, over two lines, inside a loop
example : ∃ ts, tokenize chars!"IM IN YR l\n  VISIBLE x ...\n    \"b\", GTFO\nIM OUTTA YR l" = .ok (.ok ts) ∧
    TextOf chars!"IM IN YR l\n  VISIBLE x ...\n    \"b\", GTFO\nIM OUTTA YR l" (stmt ts 1)
      chars!"VISIBLE x ...\n    \"b\"" ∧
    (∀ t ∈ stmt ts 1, t.Movable) := by
  refine ⟨_, rfl, ⟨chars!"IM IN YR l\n  ", chars!", GTFO\nIM OUTTA YR l", _, _, by decide +kernel, rfl, rfl,
    by decide +kernel, by decide +kernel⟩, movable_of (by decide +kernel)⟩

theorem mapOutcome_eq_ok {f : Token → Token} {r : Out Block} {x : Block} (h : mapOutcome f r = .ok x) :
    ∃ y, r = .ok y ∧ mapBlock f y = x := by
  cases r with
  | ok y => exact ⟨y, rfl, Out.ok.inj h⟩
  | panic p => cases h
  | outOfFuel => cases h

theorem parseEach_map {f : Token → Token} : {src src' : List (List Token)} → src.length = src'.length →
    (∀ i, i < src.length → mapOutcome f (parse (src.getD i [])) = mapOutcome f (parse (src'.getD i []))) →
    mapOutcome f (parseEach src) = mapOutcome f (parseEach src')
  | [], [], _, _ => rfl
  | [], _ :: _, h, _ => by cases h
  | _ :: _, [], h, _ => by cases h
  | a :: src, b :: src', hl, h => by
    have h0 := h 0 (by simp)
    have h1 := parseEach_map (f := f) (src := src) (src' := src') (by simpa using hl)
      fun i hi => by simpa using h (i + 1) (by simpa using hi)
    simp only [List.getD_cons_zero] at h0
    rw [parseEach, parseEach]
    cases ha : parse a <;> cases hb : parse b <;> rw [ha, hb] at h0 <;> simp only [mapOutcome, reduceCtorEq,
      Out.ok.injEq, Out.panic.injEq] at h0
    · cases hc : parseEach src <;> cases hd : parseEach src' <;> rw [hc, hd] at h1 <;> simp only [mapOutcome,
        reduceCtorEq, Out.ok.injEq, Out.panic.injEq] at h1
      · simp only [Out.bind, mapOutcome, mapBlock_append, h0, h1]
      · simp only [Out.bind, mapOutcome, h1]
      · rfl
    · simp only [Out.bind, mapOutcome, h0]
    · rfl

/-- **C72** When no statement opens a block, the tree of the program is, up to positions, that of the texts of its
statements, each parsed as a program of its own. -/
theorem C72_flat {code : Str} {ts : List Token} (h : tokenize code = .ok (.ok ts)) (txts : List Str)
    (h1 : ∀ i, i < txts.length → Flat (stmt ts i) ∧ TextOf code (stmt ts i) (txts.getD i []) ∧
      ∀ t ∈ stmt ts i, t.Movable)
    (h2 : ∀ i, txts.length ≤ i → stmt ts i = []) :
    ∃ src, src.length = txts.length ∧
      (∀ i, i < txts.length → tokenize (txts.getD i [] ++ ['\n']) = .ok (.ok (src.getD i []))) ∧
      mapOutcome Token.unplaced (parse ts) = mapOutcome Token.unplaced (parseEach src) := by
  have hex : ∀ i, ∃ p : List Token × List Token, i < txts.length →
      tokenize (txts.getD i [] ++ ['\n']) = .ok (.ok p.1) ∧ Alone p.2 (stmt ts i) ∧
      mapOutcome Token.unplaced (parse p.2) = mapOutcome Token.unplaced (parse p.1) := by
    intro i
    by_cases hi : i < txts.length
    · obtain ⟨⟨t, r, g1, -⟩, g2, g3⟩ := h1 i hi
      obtain ⟨us, k1, k2⟩ := C72_alone h i g2 g3
      obtain ⟨a, mid, c, -, -, -, k3⟩ := stmt_segment (ts := ts) (i := i) (by rw [g1]; simp)
      exact ⟨(us, mid), fun _ => ⟨k1, alone_of_split k3, (k2 _ (alone_of_split k3)).symm⟩⟩
    · exact ⟨([], []), fun h => absurd h hi⟩
  let f : Nat → List Token × List Token := fun i => Classical.choose (hex i)
  have hf : ∀ i, i < txts.length → tokenize (txts.getD i [] ++ ['\n']) = .ok (.ok (f i).1) ∧
      Alone (f i).2 (stmt ts i) ∧
      mapOutcome Token.unplaced (parse (f i).2) = mapOutcome Token.unplaced (parse (f i).1) :=
    fun i => Classical.choose_spec (hex i)
  have hget : ∀ (g : Nat → List Token) i, i < txts.length → ((List.range txts.length).map g).getD i [] = g i := by
    intro g i hi
    simp [List.getD_eq_getElem?_getD, hi]
  refine ⟨(List.range txts.length).map fun i => (f i).1, by simp, ?_, ?_⟩
  · intro i hi
    rw [hget _ i hi]
    exact (hf i hi).1
  · rw [C39_flat ts ((List.range txts.length).map fun i => (f i).2)]
    · apply parseEach_map (by simp)
      intro i hi
      have hi : i < txts.length := by simpa using hi
      rw [hget _ i hi, hget _ i hi]
      exact (hf i hi).2.2
    · intro i hi
      exact (h1 i (by simpa using hi)).1
    · intro i hi
      exact h2 i (by simpa using hi)
    · intro i hi
      have hi : i < txts.length := by simpa using hi
      rw [hget _ i hi]
      exact (hf i hi).2.1

-- two statements, the second of them in error
example : ∃ ts, tokenize chars!"I HAS A x ITZ 3, GIMMEH  12\n" = .ok (.ok ts) ∧
    (∀ i, i < 2 → Flat (stmt ts i) ∧ TextOf chars!"I HAS A x ITZ 3, GIMMEH  12\n" (stmt ts i)
      ([chars!"I HAS A x ITZ 3", chars!"GIMMEH  12"].getD i []) ∧ ∀ t ∈ stmt ts i, t.Movable) ∧
    ∀ i, 2 ≤ i → stmt ts i = [] := by
  refine ⟨_, rfl, fun i hi => ?_, fun i hi => ?_⟩
  · match i, hi with
    | 0, _ => exact ⟨⟨_, _, rfl, by decide +kernel⟩, ⟨[], chars!", GIMMEH  12\n", _, _, by decide +kernel, rfl, rfl,
        by decide +kernel, by decide +kernel⟩, movable_of (by decide +kernel)⟩
    | 1, _ => exact ⟨⟨_, _, rfl, by decide +kernel⟩, ⟨chars!"I HAS A x ITZ 3, ", chars!"\n", _, _, by decide +kernel,
        rfl, rfl, by decide +kernel, by decide +kernel⟩, movable_of (by decide +kernel)⟩
  · match i, hi with
    | i + 2, _ => rfl

/-- **C72** In a program without errors, the nodes of a plain statement, at any depth, are up to positions what its
text gives as a program of its own. -/
theorem C72_inside {code txt : Str} {ts : List Token} (h : tokenize code = .ok (.ok ts)) (i : Nat)
    (ht : TextOf code (stmt ts i) txt) (hm : ∀ t ∈ stmt ts i, t.Movable) (hp : Plain (stmt ts i))
    (hb : ∀ j, j < i → stmt ts j ≠ []) {nodes : Block} (hn : parse ts = .ok nodes) (he : errorFreeBlock nodes) :
    ∃ x y, Within x nodes ∧ tokenizeAndParse (txt ++ ['\n']) = .ok (.ok y) ∧
      mapBlock Token.unplaced y = mapBlock Token.unplaced x := by
  have h1 := C68_there ts ts i hp hp (fun _ _ => rfl) hn hn hb
  obtain ⟨x, h2, h3⟩ := h1.within (P := fun x => ∀ one, Alone one (stmt ts i) → parse one = .ok x) he (by
    intro x x' hw hx
    cases hw with
    | alone h _ => exact h
    | misread h => cases h <;> simp [errorFreeBlock, Node.ErrorFree] at hx)
  obtain ⟨us, h4, h5⟩ := C72_alone h i ht hm
  obtain ⟨t, r, g1, -⟩ := hp
  obtain ⟨a, mid, c, -, -, -, k3⟩ := stmt_segment (ts := ts) (i := i) (by rw [g1]; simp)
  have h6 := h5 mid (alone_of_split k3)
  rw [h2 mid (alone_of_split k3)] at h6
  obtain ⟨y, h7, h8⟩ := mapOutcome_eq_ok h6
  refine ⟨x, y, h3, ?_, h8⟩
  unfold tokenizeAndParse
  rw [h4]
  show Out.bind (parse us) _ = _
  rw [h7]
  rfl

-- a statement over two lines in a branch in a loop
example : ∃ ts nodes,
    tokenize chars!"IM IN YR l\nx, O RLY?\nYA RLY\n  VISIBLE x ...\n    \"b\", GTFO\nOIC\nIM OUTTA YR l\n" =
      .ok (.ok ts) ∧
    TextOf chars!"IM IN YR l\nx, O RLY?\nYA RLY\n  VISIBLE x ...\n    \"b\", GTFO\nOIC\nIM OUTTA YR l\n" (stmt ts 4)
      chars!"VISIBLE x ...\n    \"b\"" ∧
    (∀ t ∈ stmt ts 4, t.Movable) ∧ Plain (stmt ts 4) ∧ (∀ j, j < 4 → stmt ts j ≠ []) ∧ parse ts = .ok nodes ∧
    errorFreeBlock nodes := by
  refine ⟨_, _, rfl, ⟨chars!"IM IN YR l\nx, O RLY?\nYA RLY\n  ", chars!", GTFO\nOIC\nIM OUTTA YR l\n", _, _,
    by decide +kernel, rfl, rfl, by decide +kernel, by decide +kernel⟩, movable_of (by decide +kernel),
    ⟨_, _, rfl, by decide +kernel⟩, by decide +kernel, rfl, ?_⟩
  simp [errorFreeBlock, Node.ErrorFree, errorFreeYaRly, errorFreeNoWai, errorFreeMebbes]

/-! ## C41: no statement is dropped -/

/-- **C41** (partial: only before the first empty statement, and without errors) In a program that is parsed without
errors, every statement before the first empty one is part of the derivation of the tree. -/
theorem C41_grammar_partial {tokens : List Token} {nodes : Block} (h : parse tokens = .ok nodes)
    (he : errorFreeBlock nodes) :
    ∃ L, BlockG L nodes ∧ ∀ i, (∀ j ≤ i, stmt tokens j ≠ []) → i < L.length ∧ L.getD i [] = stmt tokens i := by
  obtain ⟨L, h1, h2, h3⟩ := (C38_error_free_iff tokens nodes).1 ⟨h, he⟩
  refine ⟨L, h1, fun i hi => ?_⟩
  have hlt : i < L.length := Nat.lt_of_not_le fun hle => hi _ hle h3
  exact ⟨hlt, (h2 i hlt).symm⟩

example : ∃ tokens nodes, tokenize chars!"x R 1\nGTFO" = .ok (.ok tokens) ∧ parse tokens = .ok nodes ∧
    errorFreeBlock nodes ∧ ∀ j ≤ 1, stmt tokens j ≠ [] := by
  refine ⟨_, _, rfl, rfl, ?_, by decide +kernel⟩
  simp [errorFreeBlock, Node.ErrorFree]

/-- **C41** (partial: the same) If it opens and ends no block, the nodes that it gives alone are in the tree. -/
theorem C41_nodes_partial {tokens : List Token} {nodes : Block} (h : parse tokens = .ok nodes)
    (he : errorFreeBlock nodes) {i : Nat} (hi : ∀ j < i, stmt tokens j ≠ []) (hp : Plain (stmt tokens i)) :
    ∃ x, x ≠ [] ∧ Within x nodes ∧ ∀ one, Alone one (stmt tokens i) → parse one = .ok x := by
  have h1 := C68_there tokens tokens i hp hp (fun _ _ => rfl) h h hi
  obtain ⟨x, h2, h3⟩ := h1.within (P := fun x => ∀ one, Alone one (stmt tokens i) → parse one = .ok x) he (by
    intro x x' hw hx
    cases hw with
    | alone h _ => exact h
    | misread h => cases h <;> simp [errorFreeBlock, Node.ErrorFree] at hx)
  refine ⟨x, ?_, h3, h2⟩
  obtain ⟨t, r, g1, g2, -⟩ := hp
  obtain ⟨a, mid, c, -, -, -, k3⟩ := stmt_segment (ts := tokens) (i := i) (by rw [g1]; simp)
  have hal := alone_of_split k3
  rw [g1] at hal
  have h4 := h2 mid (by rw [g1]; exact hal)
  rintro rfl
  obtain ⟨ts, rest, -, ⟨node', -, h5⟩ | ⟨e, -, h5⟩ | ⟨p, -, h5⟩⟩ := flat_alone hal ⟨t, r, rfl, g2⟩ <;>
    (rw [h5] at h4; cases h4)

-- the last statement of a function
example : ∃ tokens nodes, tokenize chars!"HOW IZ I f YR x\nVISIBLE x\nFOUND YR x\nIF U SAY SO" = .ok (.ok tokens) ∧
    parse tokens = .ok nodes ∧ errorFreeBlock nodes ∧ (∀ j < 2, stmt tokens j ≠ []) ∧ Plain (stmt tokens 2) := by
  refine ⟨_, _, rfl, rfl, ?_, by decide +kernel, ⟨_, _, rfl, by decide +kernel⟩⟩
  simp [errorFreeBlock, Node.ErrorFree]

end Lol
