import Verif.Parser.CloseLemmas
import Verif.Props.Append
import Verif.Props.Words

/-! # Programs that are cut off (C83) -/

namespace Lol

theorem Closers.map {ks : List Closer} {C : List (List Token)} (h : Closers ks C) {f : Token → Token}
    (hf : ∀ t, (f t).tokenType = t.tokenType) : Closers ks (C.map (List.map f)) := by
  induction h with
  | nil => exact .nil
  | loop h1 h2 _ ih =>
    refine .loop ?_ ?_ ih
    · simpa [Token.Is, hf] using h1
    · simpa [Token.IsIdent, hf] using h2
  | function h1 _ ih => exact .function (by simpa [Token.Is, hf] using h1) ih
  | oic h1 _ ih => exact .oic (by simpa [Token.Is, hf] using h1) ih
  | empty _ ih => exact .empty ih

/-- The statements of a text and of lines after it. -/
theorem LinesOf.statements {a b : Str} {ta tb : List Token} (h : LinesOf a ta) (hb : tokenize b = .ok (.ok tb)) :
    ∃ ts f, tokenize (a ++ '\n' :: b) = .ok (.ok ts) ∧ (∀ t, (f t : Token).tokenType = t.tokenType) ∧
      (ta ≠ [] → (split ts).all = (split ta).all ++ (splitGap tb).map (List.map f)) ∧
      splitGap ts = splitGap ta ++ (splitGap tb).map (List.map f) := by
  have hlt := h.before hb
  obtain ⟨h1, h2, h3⟩ := h
  have h4 := C54_lines (b := b) h1 h2
  rw [hb] at h4
  simp only [joinLines] at h4
  generalize (lineColumn ta (a ++ ['\n']) 0 1 1).1 - 1 = dl at *
  have hty : ∀ t : Token, (Token.shift 1 dl 0 (utf8Len a + 1) (a.length + 1) t).tokenType = t.tokenType := fun _ => rfl
  have hline : ∀ t : Token, (Token.shift 1 dl 0 (utf8Len a + 1) (a.length + 1) t).range.start.line =
    t.range.start.line + dl := fun _ => rfl
  refine ⟨_, Token.shift 1 dl 0 (utf8Len a + 1) (a.length + 1), h4, hty, ?_⟩
  generalize Token.shift 1 dl 0 (utf8Len a + 1) (a.length + 1) = f at *
  have e2 : splitGap (tb.map f) = (splitGap tb).map (List.map f) :=
    (split_map (f := f) (fun t => by rw [hty]) (fun _ => True) (fun t u _ _ => by rw [hline, hline]; omega) tb
      (fun _ _ => trivial)).2
  rw [← e2]
  cases tb with
  | nil => simp [splitGap]
  | cons u us =>
    have key := split_append (lu := (f u).range.start.line) (us := (u :: us).map f)
      (by rintro v r hv; cases hv; rfl) ta
      (fun t ht => by have := hlt t ht u (by simp); rw [hline]; omega) h3
    refine ⟨fun hne => ?_, key.2⟩
    cases ta with
    | nil => exact absurd rfl hne
    | cons t ta =>
      have := key.1 t.range.start.line (by simp)
      rw [split, List.cons_append, firstLine, ← List.cons_append, this]
      rfl

theorem Closer.lineOf (k : Closer) : ∃ ts, LinesOf k.line ts ∧ Closers [k] (splitGap ts) := by
  cases k with
  | loop => exact ⟨_, ⟨rfl, by decide +kernel, by decide +kernel⟩, .loop (c := _) (l := _) rfl ⟨_, rfl⟩ .nil⟩
  | function => exact ⟨_, ⟨rfl, by decide +kernel, by decide +kernel⟩, .function (c := _) rfl .nil⟩
  | oic => exact ⟨_, ⟨rfl, by decide +kernel, by decide +kernel⟩, .oic (c := _) rfl .nil⟩
  | empty => exact ⟨_, ⟨rfl, by decide +kernel, by decide +kernel⟩, .empty .nil⟩

theorem Closers.append {ks js : List Closer} {C D : List (List Token)} (h : Closers ks C) (h' : Closers js D) :
    Closers (ks ++ js) (C ++ D) := by
  induction h with
  | nil => exact h'
  | loop h1 h2 _ ih => exact .loop h1 h2 ih
  | function h1 _ ih => exact .function h1 ih
  | oic h1 _ ih => exact .oic h1 ih
  | empty _ ih => exact .empty ih

/-- The lines that close are tokenized to the statements that close. -/
theorem closingLines_tokens (ks : List Closer) :
    ∃ ts, tokenize (closingLines ks) = .ok (.ok ts) ∧ Closers ks (splitGap ts) := by
  induction ks with
  | nil => exact ⟨_, rfl, .nil⟩
  | cons k ks ih =>
    obtain ⟨tb, h1, h2⟩ := ih
    obtain ⟨ta, h3, h4⟩ := k.lineOf
    obtain ⟨ts, f, h5, h6, -, h7⟩ := h3.statements h1
    refine ⟨ts, ?_, ?_⟩
    · rw [← h5]; simp [closingLines]
    · rw [h7]; exact h4.append (h2.map h6)

/-! ## C83 -/

/-- **C83** When some statements added at the end of a program make it one without errors, then statements that only
close what is open do: `IM OUTTA YR` with a label, `IF U SAY SO`, `OIC` and empty statements, at most two for every
statement of the program and one more. -/
theorem C83_statements {ts ts' : List Token} {nodes : Block} (hs : (split ts).all <+: (split ts').all)
    (h : parse ts' = .ok nodes) (he : errorFreeBlock nodes) :
    ∃ ks : List Closer, ks.length ≤ 2 * (split ts).all.length + 1 ∧
      ∀ ts'' C, Closers ks C → (split ts'').all = (split ts).all ++ C →
        ∃ nodes', parse ts'' = .ok nodes' ∧ errorFreeBlock nodes' := by
  obtain ⟨L, h1, h2, h3⟩ := (C38_error_free_iff ts' nodes).1 ⟨h, he⟩
  obtain ⟨e, hs⟩ := hs
  simp only [stmt, ← hs] at h2 h3
  generalize (split ts).all = P at *
  by_cases hle : P.length ≤ L.length
  · have hL : L = P ++ L.drop P.length := by
      apply List.ext_getElem?
      intro i
      by_cases hi : i < P.length
      · have := h2 i (by omega)
        rw [List.getD_eq_getElem?_getD, List.getD_eq_getElem?_getD, List.getElem?_append_left hi] at this
        rw [List.getElem?_append_left hi]
        rw [List.getElem?_eq_getElem hi, List.getElem?_eq_getElem (by omega)] at *
        simp at this
        rw [this]
      · rw [List.getElem?_append_right (by omega), List.getElem?_drop]
        congr 1; omega
    obtain ⟨ks, h4, h5⟩ := h1.close _ _ hL
    refine ⟨ks, h4, fun ts'' C hC ht => ?_⟩
    obtain ⟨nodes', h6⟩ := h5 C hC
    refine ⟨nodes', (C38_error_free_iff ts'' nodes').2 ⟨_, h6, fun i _ => ?_, ?_⟩⟩
    · rw [stmt, ht]
    · rw [stmt, ht]; simp [List.getD_eq_getElem?_getD]
  · refine ⟨[], by simp, fun ts'' C hC ht => ?_⟩
    cases hC
    refine ⟨nodes, (C38_error_free_iff ts'' nodes).2 ⟨L, h1, fun i hi => ?_, ?_⟩⟩
    · rw [stmt, ht, ← h2 i hi, List.getD_eq_getElem?_getD, List.getD_eq_getElem?_getD,
        List.getElem?_append_left (by omega), List.getElem?_append_left (by omega)]
    · rw [List.getD_eq_getElem?_getD, List.getElem?_append_left (by omega)] at h3
      rw [stmt, ht, List.append_nil, List.getD_eq_getElem?_getD, h3]

-- a loop that is cut off in its body, the whole of it, and what closes it
example : ∃ ts ts'' C, tokenize chars!"IM IN YR l\nGTFO\nGTFO\nIM OUTTA YR l" = .ok (.ok ts) ∧
    tokenize chars!"IM IN YR l\nGTFO\nIM OUTTA YR x" = .ok (.ok ts'') ∧
    (split (ts.take 3)).all <+: (split ts).all ∧
    (∃ nodes, parse ts = .ok nodes ∧ errorFreeBlock nodes) ∧
    Closers [.loop] C ∧ (split ts'').all = (split (ts.take 3)).all ++ C := by
  obtain ⟨ts, h⟩ : ∃ ts, tokenize chars!"IM IN YR l\nGTFO\nGTFO\nIM OUTTA YR l" = .ok (.ok ts) := ⟨_, rfl⟩
  obtain ⟨ts'', h'⟩ : ∃ ts, tokenize chars!"IM IN YR l\nGTFO\nIM OUTTA YR x" = .ok (.ok ts) := ⟨_, rfl⟩
  refine ⟨ts, ts'', (split ts'').all.drop 2, h, h', ?_⟩
  cases h
  cases h'
  exact ⟨by decide +kernel, ⟨_, rfl, by simp [errorFreeBlock, Node.ErrorFree]⟩,
    .loop (c := _) (l := _) rfl ⟨_, rfl⟩ .nil, by decide +kernel⟩

/-- **C83** When there are lines that, added to a text, make it a program that is parsed without errors, then lines that
only close what is open do: lines that are `IM OUTTA YR l`, `IF U SAY SO`, `OIC` or an empty statement. -/
theorem C83_lines {a b : Str} {ta : List Token} {nodes : Block} (ha : LinesOf a ta)
    (h : tokenizeAndParse (a ++ '\n' :: b) = .ok (.ok nodes)) (he : errorFreeBlock nodes) :
    ∃ ks : List Closer, ks.length ≤ 2 * (split ta).all.length + 1 ∧
      ∃ nodes', tokenizeAndParse (a ++ '\n' :: closingLines ks) = .ok (.ok nodes') ∧ errorFreeBlock nodes' := by
  have hparse : ∀ {code ts nodes}, tokenize code = .ok (.ok ts) → parse ts = .ok nodes →
      tokenizeAndParse code = .ok (.ok nodes) := by
    intro code ts nodes h1 h2
    unfold tokenizeAndParse
    rw [h1]
    show Out.bind (parse ts) _ = _
    rw [h2]
    rfl
  by_cases hne : ta = []
  · subst hne
    exact ⟨[], by simp, [], hparse ha.1 rfl, trivial⟩
  · cases hb : tokenize b with
    | ok r =>
      cases r with
      | ok tb =>
        obtain ⟨ts, f, h1, h2, h3, -⟩ := ha.statements hb
        obtain ⟨ks, h4, h5⟩ := C83_statements (ts := ta) (ts' := ts) ⟨_, (h3 hne).symm⟩
          (parse_of_tokenizeAndParse h1 h) he
        refine ⟨ks, h4, ?_⟩
        obtain ⟨tk, h6, h7⟩ := closingLines_tokens ks
        obtain ⟨ts'', g, h8, h9, h10, -⟩ := ha.statements h6
        obtain ⟨nodes', h11, h12⟩ := h5 ts'' _ (h7.map h9) (h10 hne)
        exact ⟨nodes', hparse h8 h11, h12⟩
      | error e =>
        have h4 := C54_lines (b := b) ha.1 ha.2.1
        rw [hb] at h4
        simp only [joinLines] at h4
        unfold tokenizeAndParse at h; rw [h4] at h; cases h
    | panic p =>
      have h4 := C54_lines (b := b) ha.1 ha.2.1
      rw [hb] at h4
      simp only [joinLines] at h4
      unfold tokenizeAndParse at h; rw [h4] at h; cases h
    | outOfFuel =>
      have h4 := C54_lines (b := b) ha.1 ha.2.1
      rw [hb] at h4
      simp only [joinLines] at h4
      unfold tokenizeAndParse at h; rw [h4] at h; cases h

-- A function in a conditional, cut off after the header of the function: one completion, and the one that only closes.
set_option maxRecDepth 8000 in
example : (∃ ta, LinesOf chars!"O RLY?\nYA RLY\nHOW IZ I f" ta) ∧
    (∃ nodes, tokenizeAndParse (chars!"O RLY?\nYA RLY\nHOW IZ I f" ++ '\n' ::
      chars!"VISIBLE x\nIF U SAY SO\n...,\nNO WAI\nx R y\nOIC") = .ok (.ok nodes) ∧ errorFreeBlock nodes) ∧
    (∃ nodes, tokenizeAndParse (chars!"O RLY?\nYA RLY\nHOW IZ I f" ++ '\n' ::
      closingLines [.empty, .function, .empty, .oic]) = .ok (.ok nodes) ∧ errorFreeBlock nodes) := by
  refine ⟨⟨_, rfl, ?_⟩, ⟨_, rfl, ?_⟩, ⟨_, rfl, ?_⟩⟩
  · decide +kernel
  · simp [errorFreeBlock, Node.ErrorFree, errorFreeMebbes, errorFreeYaRly, errorFreeNoWai]
  · simp [errorFreeBlock, Node.ErrorFree, errorFreeMebbes, errorFreeYaRly, errorFreeNoWai]

/-- **C83** When statements added at the end of a program make it one without errors, then the program is parsed, and its
tree has no errors but perhaps one at its end, that of a construct that is not closed. -/
theorem C83_tree {ts ts' : List Token} {nodes : Block} (hs : StartsWith ts' ts) (h : parse ts' = .ok nodes)
    (he : errorFreeBlock nodes) :
    ∃ init, errorFreeBlock init ∧
      (parse ts = .ok init ∨ ∃ e : ASTError, e.Unclosed ∧ parse ts = .ok (init ++ [.astError e])) := by
  cases hp : parse ts with
  | ok tree =>
    rcases C79_tree hs hp h with ⟨rest, h1⟩ | ⟨pre, x, rest, h1, h2, h3⟩
    · rw [h1, errorFreeBlock_append] at he
      exact ⟨tree, he.1, .inl rfl⟩
    · rw [h3, errorFreeBlock_append] at he
      exact ⟨pre, he.1, .inr ⟨x, h2, by rw [h1]⟩⟩
  | panic p => rw [C79_panic hs hp] at h; cases h
  | outOfFuel => exact absurd hp (C20_terminates ts)

-- the tree of a program that is cut off
example : ∃ ts, tokenize chars!"GTFO\nIM IN YR l\nGTFO\nIM OUTTA YR l" = .ok (.ok ts) ∧ StartsWith ts (ts.take 4) ∧
    (∃ nodes, parse ts = .ok nodes ∧ errorFreeBlock nodes) ∧
    ∃ t u, parse (ts.take 4) = .ok [.gtfo t, .astError (.imInYr (.missingImOuttaYr u))] := by
  obtain ⟨ts, h⟩ : ∃ ts, tokenize chars!"GTFO\nIM IN YR l\nGTFO\nIM OUTTA YR l" = .ok (.ok ts) := ⟨_, rfl⟩
  refine ⟨ts, h, ?_⟩
  cases h
  exact ⟨startsWith_of (by decide +kernel), ⟨_, rfl, by simp [errorFreeBlock, Node.ErrorFree]⟩, _, _, rfl⟩

/-- **C83** The converse does not hold: the error of a construct that is not closed hides those in its body. No lines
make this text a program without errors. -/
theorem C83_hidden :
    (∃ ta, LinesOf chars!"IM IN YR l\nVISIBLE A" ta ∧
      match parse ta with
      | .ok [.astError (.imInYr (.missingImOuttaYr _))] => True
      | _ => False) ∧
    ∀ b nodes, tokenizeAndParse (chars!"IM IN YR l\nVISIBLE A" ++ '\n' :: b) = .ok (.ok nodes) →
      ¬ errorFreeBlock nodes := by
  obtain ⟨ta, hta⟩ : ∃ ta, tokenize (chars!"IM IN YR l\nVISIBLE A" ++ ['\n']) = .ok (.ok ta) := ⟨_, rfl⟩
  have ha : LinesOf chars!"IM IN YR l\nVISIBLE A" ta := by
    refine ⟨hta, ?_⟩
    cases hta
    decide +kernel
  have h0 : stmt ta 0 ≠ [] ∧ ∃ v t, stmt ta 1 = [v, t] ∧ v.Is .VISIBLE ∧ t.Is .A := by
    cases hta
    exact ⟨by decide +kernel, _, _, rfl, rfl, rfl⟩
  refine ⟨⟨ta, ha, ?_⟩, fun b nodes h => ?_⟩
  · clear ha h0
    cases hta
    exact trivial
  · obtain ⟨h0, v, t, h1, hv, ht⟩ := h0
    cases hts : tokenize (chars!"IM IN YR l\nVISIBLE A" ++ '\n' :: b) with
    | ok r =>
      cases r with
      | ok ts =>
        obtain ⟨n, h2, h3⟩ := ha.startsWith hts
        have hn : 1 < n := Nat.lt_of_not_le fun hle => by
          have := h2 1 hle
          rw [h1] at this
          cases this
        have e1 : stmt ts 1 = [v, t] := by rw [h3 1 hn, h1]
        have hv : v.tokenType = _ := hv
        have ht : t.tokenType = _ := ht
        refine C73_other (i := 1) (t := t) ?_ (by simp [e1]) ?_ ?_ ?_ (parse_of_tokenizeAndParse hts h)
        · intro j hj
          rcases (by omega : j = 0 ∨ j = 1) with rfl | rfl
          · rw [h3 0 (by omega)]; exact h0
          · simp [e1]
        · simp [Token.IsWord, ht, unusedKeywords]
        · rintro ⟨u, r, h4, h5⟩
          rw [e1] at h4
          cases h4
          have h5 : v.tokenType = _ := h5
          rw [hv] at h5
          cases h5
        · rintro ⟨u, q, h4, h5, -⟩
          rw [e1] at h4
          cases h4
          simp [Token.Is, hv] at h5
      | error e => unfold tokenizeAndParse at h; rw [hts] at h; cases h
    | panic p => unfold tokenizeAndParse at h; rw [hts] at h; cases h
    | outOfFuel => unfold tokenizeAndParse at h; rw [hts] at h; cases h

end Lol
