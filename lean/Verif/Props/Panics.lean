import Verif.Parser.PanicLemmas
import Verif.Props.Append
import Verif.Props.EditRun
import Verif.Props.Ranges

/-! # Where the parser panics (C81) -/

namespace Lol

/-- The parser panics at `p` on the statement alone, or on its tokens after `OMG` or `MEBBE`. -/
def PanicsAlone (st : List Token) (p : PanicSite) : Prop :=
  (∃ one, Alone one st ∧ parse one = .panic p) ∨
  ∃ t r one, st = t :: r ∧ (t.Is .OMG ∨ t.Is .MEBBE) ∧ Alone one r ∧ parse one = .panic p

/-- Every statement stands alone in some program. -/
theorem exists_alone {st : List Token} (h : ∀ t ∈ st, t.tokenType ≠ .comma ∧ t.tokenType ≠ .ellipsis) :
    ∃ one, Alone one st := by
  have h : ∀ t ∈ st, t.isSeparator = false := by
    intro t ht
    have ⟨h1, h2⟩ := h t ht
    simp [Token.isSeparator, h1, h2]
  refine ⟨joinEllipsis st, alone_of_split ?_⟩
  cases st with
  | nil => rfl
  | cons t st => exact splitFrom_join h 0

/-! ## The first statements of a program -/

theorem getD_all_push (t : Token) (s : Stmts) (j : Nat) :
    (s.push t).all.getD j [] = if j = 0 then t :: s.all.getD 0 [] else s.all.getD j [] := by
  cases j <;> rfl

theorem firstLine_prefix {a r : List Token} {line line' : Int} (h : a <+: r) :
    splitFrom a (firstLine r line) = splitFrom a (firstLine a line') := by
  cases a with
  | nil => rfl
  | cons t a =>
    obtain ⟨b, rfl⟩ := h
    rfl

theorem splitFrom_nil (line : Int) (j : Nat) : (splitFrom [] line).all.getD j [] = [] := by
  cases j <;> simp [splitFrom, Stmts.all]

/-- A program can be cut off after any number of statements. -/
theorem split_take (ts : List Token) :
    (∀ line n, ∃ a, a <+: ts ∧ ∀ j, (splitFrom a line).all.getD j [] =
      if j < n then (splitFrom ts line).all.getD j [] else []) ∧
    ∀ n, ∃ a, a <+: ts ∧ ∀ j, (splitGap a).getD j [] = if j < n then (splitGap ts).getD j [] else [] := by
  induction ts with
  | nil =>
    refine ⟨fun line n => ⟨[], List.prefix_rfl, fun j => ?_⟩, fun n => ⟨[], List.prefix_rfl, fun j => ?_⟩⟩
    · rw [splitFrom_nil]; simp
    · simp [splitGap]
  | cons t ts ih =>
    obtain ⟨ih1, ih2⟩ := ih
    constructor
    · intro line n
      cases n with
      | zero => exact ⟨[], List.nil_prefix, fun j => by rw [splitFrom_nil]; simp⟩
      | succ n =>
        by_cases hc : t.tokenType = .comma
        · obtain ⟨a, h1, h2⟩ := ih2 n
          refine ⟨t :: a, List.cons_prefix_cons.2 ⟨rfl, h1⟩, fun j => ?_⟩
          rw [splitFrom, splitFrom, if_pos hc, if_pos hc]
          cases j with
          | zero => rfl
          | succ j =>
            have := h2 j
            simpa [Stmts.all] using this
        · by_cases hl : t.range.start.line = line
          · by_cases he : t.tokenType = .ellipsis
            · obtain ⟨a, h1, h2⟩ := ih1 (firstLine ts line) (n + 1)
              refine ⟨t :: a, List.cons_prefix_cons.2 ⟨rfl, h1⟩, fun j => ?_⟩
              rw [splitFrom, splitFrom, if_neg hc, if_neg hc, if_pos hl, if_pos hl, if_pos he, if_pos he, ← h2 j,
                firstLine_prefix h1]
            · obtain ⟨a, h1, h2⟩ := ih1 line (n + 1)
              refine ⟨t :: a, List.cons_prefix_cons.2 ⟨rfl, h1⟩, fun j => ?_⟩
              rw [splitFrom, splitFrom, if_neg hc, if_neg hc, if_pos hl, if_pos hl, if_neg he, if_neg he,
                getD_all_push, getD_all_push, h2 0, h2 j]
              by_cases hj : j = 0
              · simp [hj]
              · simp [hj]
          · cases n with
            | zero =>
              refine ⟨[], List.nil_prefix, fun j => ?_⟩
              rw [splitFrom_nil, splitFrom, if_neg hc, if_neg hl]
              cases j <;> simp [Stmts.all]
            | succ n =>
              by_cases he : t.tokenType = .ellipsis
              · obtain ⟨a, h1, h2⟩ := ih1 (firstLine ts t.range.start.line) (n + 1)
                refine ⟨t :: a, List.cons_prefix_cons.2 ⟨rfl, h1⟩, fun j => ?_⟩
                rw [splitFrom, splitFrom, if_neg hc, if_neg hc, if_neg hl, if_neg hl, if_pos he, if_pos he]
                cases j with
                | zero => rfl
                | succ j =>
                  have := h2 j
                  rw [firstLine_prefix (line' := t.range.start.line) h1] at this
                  simp only [Stmts.all] at this ⊢
                  rw [List.getD_cons_succ, List.getD_cons_succ, this]
                  simp
              · obtain ⟨a, h1, h2⟩ := ih1 t.range.start.line (n + 1)
                refine ⟨t :: a, List.cons_prefix_cons.2 ⟨rfl, h1⟩, fun j => ?_⟩
                rw [splitFrom, splitFrom, if_neg hc, if_neg hc, if_neg hl, if_neg hl, if_neg he, if_neg he]
                cases j with
                | zero => rfl
                | succ j =>
                  show ((splitFrom a t.range.start.line).push t).all.getD j [] =
                    if j + 1 < n + 1 + 1 then ((splitFrom ts t.range.start.line).push t).all.getD j [] else []
                  rw [getD_all_push, getD_all_push, h2 0, h2 j]
                  by_cases hj : j = 0
                  · simp [hj]
                  · simp [hj]
    · intro n
      cases n with
      | zero => exact ⟨[], List.nil_prefix, fun j => by simp [splitGap]⟩
      | succ n =>
        by_cases hc : t.tokenType = .comma
        · obtain ⟨a, h1, h2⟩ := ih2 (n + 1)
          refine ⟨t :: a, List.cons_prefix_cons.2 ⟨rfl, h1⟩, fun j => ?_⟩
          rw [splitGap, splitGap, if_pos hc, if_pos hc, h2 j]
        · by_cases he : t.tokenType = .ellipsis
          · obtain ⟨a, h1, h2⟩ := ih1 (firstLine ts t.range.start.line) (n + 1)
            refine ⟨t :: a, List.cons_prefix_cons.2 ⟨rfl, h1⟩, fun j => ?_⟩
            rw [splitGap, splitGap, if_neg hc, if_neg hc, if_pos he, if_pos he, ← h2 j, firstLine_prefix h1]
          · obtain ⟨a, h1, h2⟩ := ih1 t.range.start.line (n + 1)
            refine ⟨t :: a, List.cons_prefix_cons.2 ⟨rfl, h1⟩, fun j => ?_⟩
            rw [splitGap, splitGap, if_neg hc, if_neg hc, if_neg he, if_neg he, getD_all_push, getD_all_push, h2 0, h2 j]
            by_cases hj : j = 0
            · simp [hj]
            · simp [hj]

theorem stretch_take (tokens : List Token) (k : Nat) : ∃ own, own <+: tokens ∧ Stretch own tokens 0 k := by
  obtain ⟨a, h1, h2⟩ := (split_take tokens).1 (firstLine tokens 0) k
  refine ⟨a, h1, fun j => ?_⟩
  rw [stmt, split, ← firstLine_prefix h1, h2 j, Nat.zero_add]
  rfl

/-! ## Statements that panic -/

theorem AccessFail.no_panic {rest ts : List Token} {f : Fail} (h : AccessFail rest ts f) (p : PanicSite) :
    f ≠ .panic p := by
  rintro rfl
  cases h with
  | name h => cases h
  | slot _ _ h => cases h

theorem ExprFail.panic_first {rest ts : List Token} {f : Fail} (h : ExprFail rest ts f) (p : PanicSite)
    (hf : f = .panic p) : ∃ t r, ts = t :: r ∧ ∃ k, t.Is k ∧ k ∈ exprKeywords ∧ k ≠ .SRS := by
  cases h with
  | start => cases hf
  | maek h => exact ⟨_, _, rfl, _, h, by decide, by decide⟩
  | access _ h => exact absurd hf (h.no_panic p)
  | unaryEnd => cases hf
  | @unary op _ _ h => exact ⟨_, _, rfl, _, h, by cases op <;> simp [UnaryOpt.keyword, exprKeywords],
      by cases op <;> simp [UnaryOpt.keyword]⟩
  | binaryEnd => cases hf
  | @binaryLeft op _ _ h => exact ⟨_, _, rfl, _, h, by cases op <;> simp [BinaryOpt.keyword, exprKeywords],
      by cases op <;> simp [BinaryOpt.keyword]⟩
  | binaryMiddle => cases hf
  | @binaryRight op _ _ _ _ h => exact ⟨_, _, rfl, _, h, by cases op <;> simp [BinaryOpt.keyword, exprKeywords],
      by cases op <;> simp [BinaryOpt.keyword]⟩
  | @nary op _ _ _ h => exact ⟨_, _, rfl, _, h, by cases op <;> simp [NaryOpt.keyword, exprKeywords],
      by cases op <;> simp [NaryOpt.keyword]⟩

theorem ExprFail.panics {rest ts : List Token} {p : PanicSite} (h : ExprFail rest ts (.panic p))
    (l : List (List Token)) : StepR ⟨ts ++ rest, l⟩ (.panic p) := by
  obtain ⟨t, r, rfl, k, hk, hk1, hk2⟩ := h.panic_first p rfl
  refine .panic (.simpleFail (f := .panic p) (.expression ?_ ?_ ?_ h))
  · intro k' hk' ht
    have : k = k' := by
      have h1 : t.tokenType = _ := hk
      have h2 : t.tokenType = _ := ht
      rw [h1] at h2
      cases h2; rfl
    subst this
    revert hk1 hk'
    cases k <;> decide
  · rintro ⟨s, hs⟩
    have h1 : t.tokenType = _ := hk
    rw [h1] at hs
    cases hs
  · intro ht
    have h1 : t.tokenType = _ := hk
    have h2 : t.tokenType = _ := ht
    rw [h1] at h2
    cases h2
    exact hk2 rfl

theorem Faulty.alone {q : List Token} {p : PanicSite} (h : Faulty q p)
    (hq : ∀ t ∈ q, t.tokenType ≠ .comma ∧ t.tokenType ≠ .ellipsis) : PanicsAlone q p := by
  rcases h with h | ⟨t, ts, rest, rfl, h1, h2⟩
  · obtain ⟨one, ho⟩ := exists_alone hq
    refine .inl ⟨one, ho, ?_⟩
    rw [parse_alone ho]
    exact parseStmts_panic_iff.2 (.panic (h []))
  · obtain ⟨one, ho⟩ := exists_alone fun t ht => hq t (List.mem_cons_of_mem _ ht)
    refine .inr ⟨t, _, one, rfl, h1, ho, ?_⟩
    rw [parse_alone ho]
    exact parseStmts_panic_iff.2 (.panic (h2.panics []))

/-- A panic stays when statements are added. -/
theorem BlockR.panic_more {L e : List (List Token)} {p : PanicSite} (h : BlockR [] (.of L) (.panic p)) :
    BlockR [] (.of (L ++ e)) (.panic p) := by
  cases L with
  | nil => cases h.at_end
  | cons c l =>
    rcases h.ext e with h3 | ⟨_, h3⟩ | ⟨_, h3, -⟩
    · exact h3
    · cases h3
    · cases h3

/-- The first statement that panics. -/
theorem BlockR.first_panic {p : PanicSite} : ∀ (n : Nat) {L : List (List Token)}, L.length ≤ n →
    BlockR [] (.of L) (.panic p) → ∃ m q r, L = m ++ q :: r ∧ Faulty q p ∧ BlockR [] (.of (m ++ [q])) (.panic p) ∧
      ∀ p', ¬ BlockR [] (.of m) (.panic p')
  | 0, L, hn, h => by
    cases L with
    | nil => cases h.at_end
    | cons c l => simp at hn
  | n + 1, L, hn, h => by
    obtain ⟨m, q, r, rfl, h2, h3⟩ := (h.located p rfl).of BlockR.end_ok
    by_cases hm : ∃ p', BlockR [] (.of m) (.panic p')
    · obtain ⟨p', hm⟩ := hm
      cases (hm.panic_more (e := [q])).det h3
      obtain ⟨m', q', r', rfl, g2, g3, g4⟩ := BlockR.first_panic n (by simp at hn; omega) hm
      exact ⟨m', q', r' ++ q :: r, by simp, g2, g3, g4⟩
    · exact ⟨m, q, r, rfl, h2, h3, fun p' h => hm ⟨p', h⟩⟩

/-! ## C81 -/

/-- **C81** When the parser panics, there is one statement that is the cause: what stands before it is a program that is
parsed, every program with the statements up to it panics at the same place of the code, whatever follows, and alone
this statement panics there as well (or, after `OMG` or `MEBBE`, its expression). -/
theorem C81_where {tokens : List Token} {p : PanicSite} (h : parse tokens = .panic p) :
    ∃ k, (∃ own nodes, own <+: tokens ∧ Stretch own tokens 0 k ∧ parse own = .ok nodes) ∧
      (∀ tokens', (∀ j, j ≤ k → stmt tokens' j = stmt tokens j) → parse tokens' = .panic p) ∧
      PanicsAlone (stmt tokens k) p := by
  rw [parse_eq] at h
  obtain ⟨m, q, r, h1, h2, h3, h4⟩ := BlockR.first_panic (L := (split tokens).all) _ (Nat.le_refl _)
    (parseStmts_panic_iff.1 h)
  have hq : stmt tokens m.length = q := by rw [stmt, h1]; simp [List.getD]
  have hm : ∀ j, j < m.length → stmt tokens j = m.getD j [] := by
    intro j hj
    rw [stmt, h1, List.getD_eq_getElem?_getD, List.getElem?_append_left hj, ← List.getD_eq_getElem?_getD]
  refine ⟨m.length, ?_, ?_, ?_⟩
  · obtain ⟨own, g1, g2⟩ := stretch_take tokens m.length
    have g3 : parse own = parseStmts (.of m) := by
      rw [parse_eq]
      apply parseStmts_congr
      intro k
      rw [Stmts.all_of_getD]
      have := g2 k
      rw [stmt] at this
      rw [this, Nat.zero_add]
      by_cases hk : k < m.length
      · rw [if_pos hk, hm k hk]
      · rw [if_neg hk, List.getD_eq_getElem?_getD, List.getElem?_eq_none (by omega)]; rfl
    cases hp : parse own with
    | ok nodes => exact ⟨own, nodes, g1, g2, hp⟩
    | panic p' =>
      rw [g3] at hp
      exact absurd (parseStmts_panic_iff.1 hp) (h4 p')
    | outOfFuel => exact absurd hp (C20_terminates own)
  · intro tokens' ht
    rw [parse_range tokens' (m.length + 1 + (split tokens').all.length) (by omega), map_range_add]
    have : (List.range (m.length + 1)).map (stmt tokens') = m ++ [q] := by
      apply List.ext_getElem (by simp)
      intro k hk hk'
      have hk : k < m.length + 1 := by simpa using hk
      simp only [List.getElem_map, List.getElem_range]
      rw [ht k (by omega)]
      by_cases hkm : k < m.length
      · rw [hm k hkm, List.getElem_append_left hkm, List.getD_eq_getElem?_getD, List.getElem?_eq_getElem hkm]; rfl
      · have : k = m.length := by omega
        subst this
        rw [hq]; simp
    rw [this]
    exact parseStmts_panic_iff.2 h3.panic_more
  · have := C24_no_separators tokens m.length
    rw [hq] at this ⊢
    exact h2.alone this

-- In a conditional inside a loop, the second `MEBBE`, which is statement 6.
example : ∃ tokens, tokenize
      chars!"IM IN YR l\nO RLY?\nYA RLY\nGTFO\nMEBBE x\nGTFO\nMEBBE NOT MAEK y\nGTFO\nOIC\nIM OUTTA YR l" =
        .ok (.ok tokens) ∧ parse tokens = .panic .todoMaek ∧ (stmt tokens 6).map (·.tokenType) =
          [.keyword .MEBBE, .keyword .NOT, .keyword .MAEK, .identifier chars!"y"] := by
  obtain ⟨tokens, h⟩ : ∃ ts, tokenize
      chars!"IM IN YR l\nO RLY?\nYA RLY\nGTFO\nMEBBE x\nGTFO\nMEBBE NOT MAEK y\nGTFO\nOIC\nIM OUTTA YR l" =
        .ok (.ok ts) := ⟨_, rfl⟩
  refine ⟨tokens, h, ?_⟩
  cases h
  exact ⟨rfl, by decide +kernel⟩

/-- **C81** A program none of whose statements panics alone is parsed. -/
theorem C81_safe (tokens : List Token) (h : ∀ k p, ¬ PanicsAlone (stmt tokens k) p) :
    ∃ nodes, parse tokens = .ok nodes := by
  cases h1 : parse tokens with
  | ok nodes => exact ⟨nodes, rfl⟩
  | outOfFuel => exact absurd h1 (C20_terminates tokens)
  | panic p =>
    obtain ⟨k, -, -, h2⟩ := C81_where h1
    exact absurd h2 (h k p)

-- A line that is an error does not panic.
example : ∃ tokens, tokenize chars!"x\nVISIBLE AN" = .ok (.ok tokens) ∧ ∀ k p, ¬ PanicsAlone (stmt tokens k) p := by
  obtain ⟨tokens, h⟩ : ∃ ts, tokenize chars!"x\nVISIBLE AN" = .ok (.ok ts) := ⟨_, rfl⟩
  cases h
  refine ⟨_, rfl, ?_⟩
  rintro (_ | _ | k) p (⟨one, ho, h⟩ | ⟨t, r, one, h1, h2, -⟩)
  · rw [parse_alone ho] at h; cases h
  · cases h1; rcases h2 with h2 | h2 <;> cases h2
  · rw [parse_alone ho] at h; cases h
  · cases h1; rcases h2 with h2 | h2 <;> cases h2
  · rw [parse_alone ho] at h; cases h
  · cases h1

/-- **C81** A statement that panics alone does so in every layout. -/
theorem C81_alone {one one' st : List Token} (h : Alone one st) (h' : Alone one' st) : parse one' = parse one := by
  rw [parse_alone h, parse_alone h']

example : ∃ one, tokenize chars!"x y," = .ok (.ok one) ∧ Alone one (one.take 2) ∧ Alone (one.take 2) (one.take 2) ∧
    parse one = .panic .unreachableStatement ∧ one.length = 3 :=
  ⟨_, rfl, alone_of_split (by decide +kernel), alone_of_split (by decide +kernel), rfl, rfl⟩

/-- Tokens that stand next to each other are parsed as their text is. -/
theorem text_outcome {code txt : Str} {a mid c : List Token} (h : tokenize code = .ok (.ok (a ++ (mid ++ c))))
    (ht : TextOf code mid txt) (hm : ∀ t ∈ mid, t.Movable) :
    ∃ us, tokenize (txt ++ ['\n']) = .ok (.ok us) ∧
      mapOutcome Token.unplaced (parse us) = mapOutcome Token.unplaced (parse mid) := by
  obtain ⟨us, first, k1, -, k3⟩ := C72_tokens h ht hm
  refine ⟨us, k1, C55_same (f := Token.unplaced) (fun _ => rfl) fun k => ?_⟩
  have hu : ∀ vs : List Token, vs.map Token.unplaced = (vs.map (·.tokenType)).map fun ty =>
      (⟨ty, ⟨⟨0, 0, 0, 0⟩, ⟨0, 0, 0, 0⟩⟩⟩ : Token) := by
    intro vs
    simp [Token.unplaced]
  rw [hu, hu, stmt_steps (steps_of_shift k3 0) k]

/-- **C81** In a source text, when the tokenizer has done its work and the parser panics, one statement, or what stands
after `OMG` or `MEBBE` in it, is the cause: its text, cut out, with a newline after it, panics at the same place of the
code, and the text before it, if there is any, is parsed. -/
theorem C81_text {code : Str} {tokens : List Token} {p : PanicSite} (hl : tokenize code = .ok (.ok tokens))
    (h : tokenizeAndParse code = .panic p) :
    ∃ k x txt before, (x = stmt tokens k ∨ ∃ t, stmt tokens k = t :: x ∧ (t.Is .OMG ∨ t.Is .MEBBE)) ∧
      TextOf code x txt ∧ ((∀ t ∈ x, t.Movable) → tokenizeAndParse (txt ++ ['\n']) = .panic p) ∧
      before <+: tokens ∧ Stretch before tokens 0 k ∧
      ∀ txt', TextOf code before txt' → (∀ t ∈ before, t.Movable) →
        ∃ nodes, tokenizeAndParse (txt' ++ ['\n']) = .ok (.ok nodes) := by
  have hp : parse tokens = .panic p := by
    unfold tokenizeAndParse at h
    rw [hl] at h
    have h : Out.bind (parse tokens) (fun b => Out.ok (Except.ok b)) = .panic p := h
    cases hq : parse tokens with
    | ok y => rw [hq] at h; cases h
    | panic q => rw [hq] at h; cases h; rfl
    | outOfFuel => rw [hq] at h; cases h
  obtain ⟨k, ⟨before, nodes, b1, b2, b3⟩, -, h1⟩ := C81_where hp
  have hx : ∃ x one, (x = stmt tokens k ∨ ∃ t, stmt tokens k = t :: x ∧ (t.Is .OMG ∨ t.Is .MEBBE)) ∧
      Alone one x ∧ parse one = .panic p := by
    rcases h1 with ⟨one, h2, h3⟩ | ⟨t, r, one, h2, h3, h4, h5⟩
    · exact ⟨_, one, .inl rfl, h2, h3⟩
    · exact ⟨r, one, .inr ⟨t, h2, h3⟩, h4, h5⟩
  obtain ⟨x, one, h2, h3, h4⟩ := hx
  have hin : x <:+: stmt tokens k := by
    rcases h2 with rfl | ⟨t, h2, -⟩
    · exact List.infix_refl _
    · rw [h2]; exact (List.suffix_cons t x).isInfix
  have hne : x ≠ [] := by
    rintro rfl
    rw [parse_alone h3] at h4
    cases h4
  obtain ⟨a, mid, c, g1, g2, g3, g4⟩ := part_segment hin hne
  have hmid : mid ≠ [] := by
    rintro rfl
    exact hne (List.head?_eq_none_iff.1 g2.symm)
  have hl' := hl
  rw [g1] at hl'
  obtain ⟨txt, -, e1⟩ := textOf_exists hl' hmid
  refine ⟨k, x, txt, before, h2, e1.same_ends g2.symm g3.symm, fun hm => ?_, b1, b2, fun txt' ht hm => ?_⟩
  · obtain ⟨us, f1, f2⟩ := text_outcome hl' e1 (movable_of_segment g4 hm)
    rw [C81_alone h3 (alone_of_split g4), h4] at f2
    have f3 : parse us = .panic p := by
      cases hu : parse us with
      | ok y => rw [hu] at f2; cases f2
      | panic q => rw [hu] at f2; cases f2; rfl
      | outOfFuel => rw [hu] at f2; cases f2
    unfold tokenizeAndParse
    rw [f1]
    show Out.bind (parse us) _ = _
    rw [f3]
    rfl
  · obtain ⟨rest, b1⟩ := b1
    have hl'' := hl
    rw [← b1] at hl''
    obtain ⟨us, f1, f2⟩ := text_outcome (a := []) hl'' ht hm
    rw [b3] at f2
    obtain ⟨y, f3, -⟩ := mapOutcome_eq_ok f2
    exact ⟨y, tokenizeAndParse_of f1 f3⟩

-- the text of the condition of a `MEBBE`, in a conditional that is not closed
example : ∃ tokens, tokenize chars!"O RLY?\nYA RLY\nGTFO\nMEBBE NOT MAEK y\nGTFO" = .ok (.ok tokens) ∧
    tokenizeAndParse chars!"O RLY?\nYA RLY\nGTFO\nMEBBE NOT MAEK y\nGTFO" = .panic .todoMaek ∧
    (∃ t x, stmt tokens 3 = t :: x ∧ t.Is .MEBBE ∧ (∀ t ∈ x, t.Movable) ∧
      TextOf chars!"O RLY?\nYA RLY\nGTFO\nMEBBE NOT MAEK y\nGTFO" x chars!"NOT MAEK y") ∧
    tokenizeAndParse (chars!"NOT MAEK y" ++ ['\n']) = .panic .todoMaek := by
  refine ⟨_, rfl, rfl, ⟨_, _, rfl, rfl, movable_of (by decide +kernel), chars!"O RLY?\nYA RLY\nGTFO\nMEBBE ",
    chars!"\nGTFO", _, _, by decide +kernel, rfl, rfl, by decide +kernel, by decide +kernel⟩, rfl⟩

/-- **C81** The converse does not hold: a statement that panics alone is skipped after `HAI`, which takes the next
statement, whatever it is, as tokens left over. -/
theorem C81_skipped : ∃ tokens nodes p, tokenize chars!"HAI 1.2\nVISIBLE MAEK x NUMBR\n" = .ok (.ok tokens) ∧
    parse tokens = .ok nodes ∧ PanicsAlone (stmt tokens 1) p := by
  obtain ⟨tokens, h⟩ : ∃ ts, tokenize chars!"HAI 1.2\nVISIBLE MAEK x NUMBR\n" = .ok (.ok ts) := ⟨_, rfl⟩
  cases h
  obtain ⟨one, ho⟩ := C39_alone _ 1
  refine ⟨_, _, .todoMaek, rfl, rfl, .inl ⟨one, ho, ?_⟩⟩
  rw [parse_alone ho]
  rfl

end Lol
