import Verif.Parser.EditErrors
import Verif.Parser.ErrorCount
import Verif.Props.ParserCompose
import Verif.Props.ParserEdit

/-! # Changing a line of a source text (C77) -/

namespace Lol

/-- The text `a` has the tokens `ts` when it is followed by a newline, no token takes that newline, and the last one
does not continue the line. -/
def LinesOf (a : Str) (ts : List Token) : Prop :=
  tokenize (a ++ ['\n']) = .ok (.ok ts) ∧ (∀ t ∈ ts, t.range.stop.bytes ≤ utf8Len a) ∧
    ts.getLast?.map (·.tokenType) ≠ some .ellipsis

/-- The text is one statement, which opens no block, ends no block and opens no part of a construct; it may be continued
on further lines by `...`. -/
def OneStatement (l : Str) : Prop :=
  ∃ ts st, LinesOf l ts ∧ (split ts).all = [st] ∧ Plain st

/-- The nodes of the texts `l` and `l'`, without positions: those of `l` and `l'` as programs of their own, or the errors
of a statement whose tokens are not read as a statement. -/
inductive OwnText (l l' : Str) : Block → Block → Prop
  | alone {x x' : Block} : tokenizeAndParse (l ++ ['\n']) = .ok (.ok x) →
      tokenizeAndParse (l' ++ ['\n']) = .ok (.ok x') →
      OwnText l l' (mapBlock Token.unplaced x) (mapBlock Token.unplaced x')
  | misread {ts ts' : List Token} {x x' : Block} : tokenize (l ++ ['\n']) = .ok (.ok ts) →
      tokenize (l' ++ ['\n']) = .ok (.ok ts') →
      Misread ((stmt ts 0).map Token.unplaced) ((stmt ts' 0).map Token.unplaced) x x' → OwnText l l' x x'

/-! ## The statements of a source that is put together line by line -/

theorem LinesOf.before {a b : Str} {ts us : List Token} (h : LinesOf a ts) (hb : tokenize b = .ok (.ok us)) :
    ∀ t ∈ ts, ∀ u ∈ us, t.range.start.line < u.range.start.line + ((lineColumn ts (a ++ ['\n']) 0 1 1).1 - 1) := by
  obtain ⟨h, hend, -⟩ := h
  intro t ht u hu
  have hu1 : 1 ≤ u.range.start.line := by
    obtain ⟨pre, lex, post, h1, -, h3, -⟩ := C05_offsets_exact hb hu
    rw [List.append_assoc] at h1
    have := (C07_exact hb hu h1 h3).1
    rw [(Prod.mk.inj this).1]
    exact lineColumn_le _ _ _ _ _
  have ht1 : t.range.start.line + 1 ≤ (lineColumn ts (a ++ ['\n']) 0 1 1).1 := by
    obtain ⟨pre, lex, post, h1, h2, h3, -, h5, -⟩ := C05_offsets_exact h ht
    have hb1 := hend t ht
    rw [h5] at hb1
    have hpost : post ≠ [] := by
      rintro rfl
      rw [List.append_nil] at h1
      rw [← h1, utf8Len_append] at hb1
      have : utf8Len ['\n'] = 1 := rfl
      omega
    obtain ⟨post', c, rfl⟩ : ∃ post' c, post = post' ++ [c] :=
      ⟨post.dropLast, post.getLast hpost, (List.dropLast_concat_getLast hpost).symm⟩
    rw [← List.append_assoc] at h1
    obtain ⟨ha, -⟩ := List.append_inj' h1 rfl
    have hl := (Prod.mk.inj (C07_exact h ht (by rw [h1, List.append_assoc, List.append_assoc]) h3).1).1
    have h6 : (lineColumn ts pre 0 1 1).1 ≤ (lineColumn ts a 0 1 1).1 := by
      rw [ha, List.append_assoc]
      exact lineColumn_prefix
    have hout : Outside ts (0 + utf8Len a) := by
      intro t ht hin
      have := hend t ht
      omega
    rw [lineColumn_append, lineColumn, if_pos ⟨rfl, hout⟩, lineColumn]
    omega
  omega

/-- Statements without positions. -/
def bareStmts (L : List (List Token)) : List (List Token) := L.map (List.map Token.unplaced)

/-- What precedes the statements of `splitGap` in `split`. -/
def leading : List Token → List (List Token)
  | [] => [[]]
  | t :: _ => if t.tokenType = .comma then [[]] else []

theorem split_leading (ts : List Token) : (split ts).all = leading ts ++ splitGap ts := by
  cases ts with
  | nil => rfl
  | cons t ts =>
    simp only [leading, split, splitFrom, splitGap, firstLine]
    by_cases hc : t.tokenType = .comma
    · simp [hc, Stmts.all]
    · by_cases he : t.tokenType = .ellipsis <;> simp [hc, he]

theorem LinesOf.append {a b : Str} {ta tb : List Token} (h : LinesOf a ta) (hb : tokenize b = .ok (.ok tb)) :
    ∃ ts, tokenize (a ++ '\n' :: b) = .ok (.ok ts) ∧
      bareStmts (splitGap ts) = bareStmts (splitGap ta) ++ bareStmts (splitGap tb) ∧
      (ta ≠ [] → leading ts = leading ta) ∧ (ta = [] → leading ts = leading tb) := by
  have hlt := h.before hb
  obtain ⟨h1, h2, h3⟩ := h
  have h4 := C54_lines (b := b) h1 h2
  rw [hb] at h4
  simp only [joinLines] at h4
  generalize (lineColumn ta (a ++ ['\n']) 0 1 1).1 - 1 = dl at *
  refine ⟨_, h4, ?_, ?_, ?_⟩
  · have hty : ∀ t : Token, (Token.shift 1 dl 0 (utf8Len a + 1) (a.length + 1) t).tokenType = t.tokenType := fun _ => rfl
    have hun : ∀ t : Token, Token.unplaced (Token.shift 1 dl 0 (utf8Len a + 1) (a.length + 1) t) = t.unplaced :=
      fun _ => rfl
    have hline : ∀ t : Token, (Token.shift 1 dl 0 (utf8Len a + 1) (a.length + 1) t).range.start.line =
      t.range.start.line + dl := fun _ => rfl
    generalize Token.shift 1 dl 0 (utf8Len a + 1) (a.length + 1) = f at *
    have e1 : splitGap (ta ++ tb.map f) = splitGap ta ++ splitGap (tb.map f) := by
      cases tb with
      | nil => simp [splitGap]
      | cons u us =>
        refine (split_append (lu := (f u).range.start.line) (us := (u :: us).map f) ?_ ta ?_ h3).2
        · rintro v r hv; cases hv; rfl
        · intro t ht
          have := hlt t ht u (by simp)
          rw [hline]
          omega
    have e2 : splitGap (tb.map f) = (splitGap tb).map (List.map f) :=
      (split_map (f := f) (fun t => by rw [hty]) (fun _ => True) (fun t u _ _ => by rw [hline, hline]; omega) tb
        (fun _ _ => trivial)).2
    rw [e1, e2]
    simp [bareStmts, Function.comp_def, hun]
  · intro hne
    cases ta with
    | nil => exact absurd rfl hne
    | cons t ta => rfl
  · rintro rfl
    cases tb with
    | nil => rfl
    | cons t tb => rfl

theorem bareStmts_stmt (ts : List Token) (j : Nat) :
    (stmt ts j).map Token.unplaced = (bareStmts (split ts).all).getD j [] := by
  rw [stmt, bareStmts, List.getD_eq_getElem?_getD, List.getD_eq_getElem?_getD, List.getElem?_map]
  cases (split ts).all[j]? <;> rfl

theorem LinesOf.around {a l b : Str} {ta tl tb st : List Token} (ha : LinesOf a ta) (hl : LinesOf l tl)
    (hs : (split tl).all = [st]) (hne : st ≠ []) (hb : tokenize b = .ok (.ok tb)) :
    ∃ ts, tokenize (a ++ '\n' :: (l ++ '\n' :: b)) = .ok (.ok ts) ∧
      bareStmts (split ts).all = ((if ta = [] then [] else leading ta) ++ bareStmts (splitGap ta)) ++
        st.map Token.unplaced :: bareStmts (splitGap tb) := by
  have h0 : stmt tl 0 = st := by rw [stmt, hs]; rfl
  have hgap : splitGap tl = [st] := by rw [splitGap_of_stmt (by rw [h0]; exact hne), hs]
  obtain ⟨t1, h1, h2, h3, -⟩ := hl.append hb
  obtain ⟨ts, h4, h5, h6, h7⟩ := ha.append h1
  have htl : tl ≠ [] := by rintro rfl; exact hne h0.symm
  have hlead : leading tl = [] := by
    have := split_leading tl
    rw [hs, hgap] at this
    cases hx : leading tl with
    | nil => rfl
    | cons x xs => rw [hx] at this; simp at this
  refine ⟨ts, h4, ?_⟩
  rw [split_leading, bareStmts, List.map_append]
  show bareStmts (leading ts) ++ bareStmts (splitGap ts) = _
  rw [h5, h2, hgap]
  have e : bareStmts (leading ts) = if ta = [] then [] else leading ta := by
    by_cases hta : ta = []
    · rw [h7 hta, h3 htl, hlead, if_pos hta]
      rfl
    · rw [h6 hta, if_neg hta]
      cases ta with
      | nil => rfl
      | cons t ta =>
        unfold leading
        by_cases hc : t.tokenType = .comma <;> simp [hc, bareStmts]
  rw [e]
  simp [bareStmts]

theorem Plain.of_bare {st st' : List Token} (h : Plain st) (he : st'.map Token.unplaced = st.map Token.unplaced) :
    Plain st' := by
  obtain ⟨t, r, rfl, h1, h2⟩ := h
  cases st' with
  | nil => simp at he
  | cons t' r' =>
    simp only [List.map_cons, List.cons.injEq] at he
    have hun : t'.unplaced = t.unplaced := he.1
    have hty : t'.unplaced.tokenType = t.unplaced.tokenType := by rw [hun]
    replace hty : t'.tokenType = t.tokenType := hty
    refine ⟨t', r', rfl, fun k hk h => h1 k hk ?_, fun k hk h => h2 k hk ?_⟩ <;>
    · have h : t'.tokenType = _ := h
      rw [hty] at h
      exact h

theorem Plain.ne_nil {st : List Token} (h : Plain st) : st ≠ [] := by
  obtain ⟨t, r, rfl, -⟩ := h
  simp

theorem tokenizeAndParse_of {l : Str} {ts : List Token} {x : Block} (h : tokenize l = .ok (.ok ts))
    (hx : parse ts = .ok x) : tokenizeAndParse l = .ok (.ok x) := by
  unfold tokenizeAndParse
  rw [h]
  show Out.bind (parse ts) _ = _
  rw [hx]
  rfl

theorem parse_of_tokenizeAndParse {l : Str} {ts : List Token} {x : Block} (h : tokenize l = .ok (.ok ts))
    (hx : tokenizeAndParse l = .ok (.ok x)) : parse ts = .ok x := by
  unfold tokenizeAndParse at hx
  rw [h] at hx
  have hx : Out.bind (parse ts) (fun b => Out.ok (Except.ok b)) = .ok (.ok x) := hx
  cases hp : parse ts with
  | ok y => rw [hp] at hx; cases hx; rfl
  | panic p => rw [hp] at hx; cases hx
  | outOfFuel => rw [hp] at hx; cases hx

theorem stmt_one {tl st : List Token} (h : (split tl).all = [st]) : Alone tl st := by
  refine ⟨by rw [stmt, h]; rfl, fun k => by rw [stmt, h]; rfl⟩

/-- A statement at another place alone is the line alone, up to positions. -/
theorem own_text {l : Str} {tl st su : List Token} {x : Block} (hl : LinesOf l tl) (hs : (split tl).all = [st])
    (he : su.map Token.unplaced = st.map Token.unplaced) (hsep : ∃ us k, su = stmt us k)
    (hx : ∀ one, Alone one su → parse one = .ok x) :
    ∃ y, tokenizeAndParse (l ++ ['\n']) = .ok (.ok y) ∧ mapBlock Token.unplaced y = mapBlock Token.unplaced x := by
  obtain ⟨us, k, rfl⟩ := hsep
  obtain ⟨one, h1⟩ := C39_alone us k
  have h2 := hx one h1
  have ha := stmt_one hs
  have h3 : mapOutcome Token.unplaced (parse tl) = mapOutcome Token.unplaced (parse one) := by
    refine C55_same (f := Token.unplaced) (fun _ => rfl) fun k => ?_
    cases k with
    | zero => rw [ha.1, h1.1, he]
    | succ k => rw [ha.2, h1.2]
  rw [h2] at h3
  cases hp : parse tl with
  | ok y =>
    rw [hp] at h3
    exact ⟨y, tokenizeAndParse_of hl.1 hp, Out.ok.inj h3⟩
  | panic p => rw [hp] at h3; cases h3
  | outOfFuel => rw [hp] at h3; cases h3

/-- The panic of a changed statement, up to a replacement of tokens. -/
theorem panic_up_to {f : Token → Token} (hf : ∀ t, (f t).tokenType.kind = t.tokenType.kind)
    (tokens tokens' : List Token) (i : Nat) (h1 : Plain (stmt tokens i)) (h2 : Plain (stmt tokens' i))
    (h3 : ∀ j, j ≠ i → (stmt tokens' j).map f = (stmt tokens j).map f)
    {nodes : Block} {p : PanicSite} (h4 : parse tokens = .ok nodes) (h5 : parse tokens' = .panic p) :
    ∀ one, Alone one (stmt tokens' i) → parse one = .panic p := by
  have a4 := congrArg (mapOutcome f) h4
  have a5 := congrArg (mapOutcome f) h5
  rw [parse_around tokens i ((split tokens).all.length + (split tokens').all.length) (by omega),
    ← parseStmts_map hf, Stmts.map_of] at a4
  rw [parse_around tokens' i ((split tokens).all.length + (split tokens').all.length) (by omega),
    ← parseStmts_map hf, Stmts.map_of] at a5
  simp only [List.map_append, List.map_cons, List.map_map] at a4 a5
  have e1 : (List.range i).map (List.map f ∘ stmt tokens') = (List.range i).map (List.map f ∘ stmt tokens) := by
    apply List.map_congr_left
    intro j hj
    exact h3 j (by have := List.mem_range.1 hj; omega)
  have e2 : (List.map f ∘ fun k => stmt tokens' (i + 1 + k)) = List.map f ∘ fun k => stmt tokens (i + 1 + k) :=
    funext fun k => h3 _ (by omega)
  rw [e1, e2] at a5
  obtain ⟨s, h6⟩ := parseStmts_ok_iff.1 a4
  obtain ⟨r, h7, h8⟩ := h6.edit (ps := []) (h1.map hf) (h2.map hf) (by simp) (by simp) (by simp) _ (near_of _)
  cases h7.det (parseStmts_panic_iff.1 a5)
  intro one h9
  rw [parse_alone h9]
  rcases h8.ok_inv with ⟨_, h, -⟩ | ⟨_, h, -⟩ | ⟨q, h, _, hq, h10⟩
  · cases h
  · cases h
  · cases h
    cases List.mem_singleton.1 hq.mem
    have h11 : parseStmts (Stmts.map f ⟨stmt tokens' i, []⟩) = .panic p := parseStmts_panic_iff.2 (.panic (h10 []))
    rw [parseStmts_map hf] at h11
    cases h12 : parseStmts ⟨stmt tokens' i, []⟩ with
    | ok y => rw [h12] at h11; cases h11
    | panic q => rw [h12] at h11; cases h11; rfl
    | outOfFuel => rw [h12] at h11; cases h11

/-- Two sources that differ in one line have the same statements but one, up to positions. -/
theorem LinesOf.two {a l l' b : Str} {ta tl tl' st st' : List Token} (ha : LinesOf a ta) (hl : LinesOf l tl)
    (hs : (split tl).all = [st]) (hst : Plain st) (hl' : LinesOf l' tl') (hs' : (split tl').all = [st'])
    (hst' : Plain st') {nodes : Block} (h : tokenizeAndParse (a ++ '\n' :: (l ++ '\n' :: b)) = .ok (.ok nodes)) :
    ∃ ts ts' i, tokenize (a ++ '\n' :: (l ++ '\n' :: b)) = .ok (.ok ts) ∧
      tokenize (a ++ '\n' :: (l' ++ '\n' :: b)) = .ok (.ok ts') ∧
      (stmt ts i).map Token.unplaced = st.map Token.unplaced ∧
      (stmt ts' i).map Token.unplaced = st'.map Token.unplaced ∧
      ∀ j, j ≠ i → (stmt ts' j).map Token.unplaced = (stmt ts j).map Token.unplaced := by
  have hb : ∃ tb, tokenize b = .ok (.ok tb) := by
    have e1 := C54_lines (b := l ++ '\n' :: b) ha.1 ha.2.1
    have e2 := C54_lines (b := b) hl.1 hl.2.1
    unfold tokenizeAndParse at h
    rw [e1, e2] at h
    rcases hbt : tokenize b with (e | us) | p | _
    · rw [hbt] at h; cases h
    · exact ⟨us, rfl⟩
    · rw [hbt] at h; cases h
    · rw [hbt] at h; cases h
  obtain ⟨tb, hb⟩ := hb
  obtain ⟨ts, h1, h2⟩ := ha.around hl hs hst.ne_nil hb
  obtain ⟨ts', h1', h2'⟩ := ha.around hl' hs' hst'.ne_nil hb
  generalize ((if ta = [] then [] else leading ta) ++ bareStmts (splitGap ta)) = P at h2 h2'
  refine ⟨ts, ts', P.length, h1, h1', ?_, ?_, ?_⟩
  · rw [bareStmts_stmt, h2]; simp [List.getD]
  · rw [bareStmts_stmt, h2']; simp [List.getD]
  · intro j hj
    rw [bareStmts_stmt, bareStmts_stmt, h2, h2', List.getD_eq_getElem?_getD, List.getD_eq_getElem?_getD]
    congr 1
    rcases Nat.lt_or_gt_of_ne hj with hlt | hgt
    · rw [List.getElem?_append_left hlt, List.getElem?_append_left hlt]
    · rw [List.getElem?_append_right (by omega), List.getElem?_append_right (by omega)]
      obtain ⟨m, hm⟩ : ∃ m, j - P.length = m + 1 := ⟨j - P.length - 1, by omega⟩
      rw [hm, List.getElem?_cons_succ, List.getElem?_cons_succ]

/-! ## C77 -/

/-- **C77** Changing one statement in a source text, on a line or lines of its own, changes only its own nodes: without
positions, the trees are the same, or they are except that the one has the nodes of the old line where the other has
those of the new one, at any depth. -/
theorem C77_line {a l l' b : Str} {ta : List Token} (ha : LinesOf a ta) (hl : OneStatement l) (hl' : OneStatement l')
    {nodes nodes' : Block} (h : tokenizeAndParse (a ++ '\n' :: (l ++ '\n' :: b)) = .ok (.ok nodes))
    (h' : tokenizeAndParse (a ++ '\n' :: (l' ++ '\n' :: b)) = .ok (.ok nodes')) :
    mapBlock Token.unplaced nodes' = mapBlock Token.unplaced nodes ∨
      Edited (OwnText l l') (mapBlock Token.unplaced nodes) (mapBlock Token.unplaced nodes') := by
  obtain ⟨tl, st, hl1, hl2, hl3⟩ := hl
  obtain ⟨tl', st', hl1', hl2', hl3'⟩ := hl'
  obtain ⟨ts, ts', i, h1, h1', hi, hi', hoth⟩ := ha.two hl1 hl2 hl3 hl1' hl2' hl3' h
  rcases C68_up_to (f := Token.unplaced) (fun _ => rfl) ts ts' i (hl3.of_bare hi) (hl3'.of_bare hi') hoth
    (parse_of_tokenizeAndParse h1 h) (parse_of_tokenizeAndParse h1' h') with h3 | h3
  · exact .inl h3
  · refine .inr (h3.mono fun x x' hw => ?_)
    cases hw with
    | alone g1 g2 =>
      obtain ⟨y, e1, e2⟩ := own_text hl1 hl2 hi ⟨_, _, rfl⟩ g1
      obtain ⟨y', e1', e2'⟩ := own_text hl1' hl2' hi' ⟨_, _, rfl⟩ g2
      rw [← e2, ← e2']
      exact .alone e1 e1'
    | misread g =>
      rw [hi, hi'] at g
      exact .misread hl1.1 hl1'.1 (by rw [(stmt_one hl2).1, (stmt_one hl2').1]; exact g)

-- A line in a loop is replaced by a longer one that goes over two lines.
example : (∃ ta, LinesOf chars!"HAI 1.2\nIM IN YR l" ta) ∧ OneStatement chars!"  VISIBLE a" ∧
    OneStatement chars!"  VISIBLE SMOOSH a ...\n    AN b MKAY BTW longer" ∧
    (∃ x x', tokenizeAndParse
        (chars!"HAI 1.2\nIM IN YR l" ++ '\n' :: (chars!"  VISIBLE a" ++ '\n' :: chars!"IM OUTTA YR l\nKTHXBYE")) = .ok (.ok x) ∧
      tokenizeAndParse
        (chars!"HAI 1.2\nIM IN YR l" ++ '\n' :: (chars!"  VISIBLE SMOOSH a ...\n    AN b MKAY BTW longer" ++
          '\n' :: chars!"IM OUTTA YR l\nKTHXBYE")) = .ok (.ok x')) := by
  refine ⟨⟨_, rfl, ?_⟩, ⟨_, _, ⟨rfl, ?_⟩, rfl, _, _, rfl, ?_⟩, ⟨_, _, ⟨rfl, ?_⟩, rfl, _, _, rfl, ?_⟩, _, _, rfl, rfl⟩ <;>
  decide +kernel

/-- **C77** Such a change never leads to an error of the tokenizer, and to a panic only if the new line as a program of
its own does. -/
theorem C77_fail {a l l' b : Str} {ta : List Token} (ha : LinesOf a ta) (hl : OneStatement l) (hl' : OneStatement l')
    {nodes : Block} (h : tokenizeAndParse (a ++ '\n' :: (l ++ '\n' :: b)) = .ok (.ok nodes)) :
    (∃ nodes', tokenizeAndParse (a ++ '\n' :: (l' ++ '\n' :: b)) = .ok (.ok nodes')) ∨
      ∃ p, tokenizeAndParse (a ++ '\n' :: (l' ++ '\n' :: b)) = .panic p ∧ tokenizeAndParse (l' ++ ['\n']) = .panic p := by
  obtain ⟨tl, st, hl1, hl2, hl3⟩ := hl
  obtain ⟨tl', st', hl1', hl2', hl3'⟩ := hl'
  obtain ⟨ts, ts', i, h1, h1', hi, hi', hoth⟩ := ha.two hl1 hl2 hl3 hl1' hl2' hl3' h
  have hpan : ∀ {l : Str} {ts : List Token} {p : PanicSite}, tokenize l = .ok (.ok ts) → parse ts = .panic p →
      tokenizeAndParse l = .panic p := by
    intro l ts p h1 h2
    unfold tokenizeAndParse
    rw [h1]
    show Out.bind (parse ts) _ = _
    rw [h2]
    rfl
  cases hp : parse ts' with
  | ok nodes' => exact .inl ⟨nodes', tokenizeAndParse_of h1' hp⟩
  | panic p =>
    refine .inr ⟨p, hpan h1' hp, hpan hl1'.1 ?_⟩
    have h2 := panic_up_to (f := Token.unplaced) (fun _ => rfl) ts ts' i (hl3.of_bare hi) (hl3'.of_bare hi') hoth
      (parse_of_tokenizeAndParse h1 h) hp
    obtain ⟨one, h3⟩ := C39_alone ts' i
    have h4 := h2 one h3
    have ha := stmt_one hl2'
    have h5 : mapOutcome Token.unplaced (parse tl') = mapOutcome Token.unplaced (parse one) := by
      refine C55_same (f := Token.unplaced) (fun _ => rfl) fun k => ?_
      cases k with
      | zero => rw [ha.1, h3.1, hi']
      | succ k => rw [ha.2, h3.2]
    rw [h4] at h5
    cases hq : parse tl' with
    | ok y => rw [hq] at h5; cases h5
    | panic q => rw [hq] at h5; exact h5
    | outOfFuel => rw [hq] at h5; cases h5
  | outOfFuel => exact absurd hp (C20_terminates ts')

-- The new line in the loop has a cast, and as a program of its own it panics as well.
example : (∃ ta, LinesOf chars!"IM IN YR l" ta) ∧ OneStatement chars!"VISIBLE a" ∧ OneStatement chars!"VISIBLE 1 MAEK a" ∧
    (match tokenizeAndParse (chars!"IM IN YR l" ++ '\n' :: (chars!"VISIBLE a" ++ '\n' :: chars!"IM OUTTA YR l")) with
      | .ok (.ok [.imInYr ..]) => True
      | _ => False) ∧
    tokenizeAndParse (chars!"IM IN YR l" ++ '\n' :: (chars!"VISIBLE 1 MAEK a" ++ '\n' :: chars!"IM OUTTA YR l")) =
      .panic .todoMaek ∧
    tokenizeAndParse (chars!"VISIBLE 1 MAEK a" ++ ['\n']) = .panic .todoMaek := by
  refine ⟨⟨_, rfl, ?_⟩, ⟨_, _, ⟨rfl, ?_⟩, rfl, _, _, rfl, ?_⟩, ⟨_, _, ⟨rfl, ?_⟩, rfl, _, _, rfl, ?_⟩, trivial, rfl, rfl⟩ <;>
  decide +kernel

/-- **C77** In a program without errors every such line can be replaced by any line that alone has no errors: the new
program is parsed without errors. -/
theorem C77_error_free {a l l' b : Str} {ta : List Token} (ha : LinesOf a ta) (hl : OneStatement l)
    (hl' : OneStatement l') {nodes y : Block} (h : tokenizeAndParse (a ++ '\n' :: (l ++ '\n' :: b)) = .ok (.ok nodes))
    (he : errorFreeBlock nodes) (hy : tokenizeAndParse (l' ++ ['\n']) = .ok (.ok y)) (hye : errorFreeBlock y) :
    ∃ nodes', tokenizeAndParse (a ++ '\n' :: (l' ++ '\n' :: b)) = .ok (.ok nodes') ∧ errorFreeBlock nodes' := by
  have he' := (errorFreeBlock_errors nodes).1 he
  rcases C77_fail ha hl hl' h with ⟨nodes', h1⟩ | ⟨p, -, h2⟩
  · refine ⟨nodes', h1, (errorFreeBlock_errors nodes').2 ?_⟩
    have hm : errorsBlock (mapBlock Token.unplaced nodes') = [] := by
      rcases C77_line ha hl hl' h h1 with h2 | h2
      · rw [h2, errorsBlock_map, he', List.map_nil]
      · rcases h2.errors with ⟨h3, -⟩ | ⟨p, q, x, x', hw, h3, h4⟩
        · rw [errorsBlock_map, he'] at h3
          exact absurd rfl h3
        · rw [errorsBlock_map, he'] at h3
          obtain ⟨rfl, h5⟩ := List.append_eq_nil_iff.1 h3.symm
          obtain ⟨h6, rfl⟩ := List.append_eq_nil_iff.1 h5
          rw [h4, List.nil_append, List.append_nil]
          cases hw with
          | alone g1 g2 =>
            rw [hy] at g2
            cases g2
            rw [errorsBlock_map, (errorFreeBlock_errors y).1 hye, List.map_nil]
          | misread _ _ g =>
            cases g with
            | left => simp [errorsBlock, Node.errors] at h6
            | unexpected => simp [errorsBlock, Node.errors] at h6
    rw [errorsBlock_map] at hm
    exact List.map_eq_nil_iff.1 hm
  · rw [hy] at h2
    cases h2

-- `GTFO` in a loop is replaced by a longer line.
example : (∃ ta, LinesOf chars!"IM IN YR l" ta) ∧ OneStatement chars!"GTFO" ∧ OneStatement chars!"x R SUM OF x AN y" ∧
    (∃ nodes, tokenizeAndParse (chars!"IM IN YR l" ++ '\n' :: (chars!"GTFO" ++ '\n' :: chars!"IM OUTTA YR l")) =
      .ok (.ok nodes) ∧ errorFreeBlock nodes) ∧
    ∃ y, tokenizeAndParse (chars!"x R SUM OF x AN y" ++ ['\n']) = .ok (.ok y) ∧ errorFreeBlock y := by
  refine ⟨⟨_, rfl, by decide +kernel⟩, ⟨_, _, ⟨rfl, by decide +kernel⟩, rfl, _, _, rfl, by decide +kernel⟩,
    ⟨_, _, ⟨rfl, by decide +kernel⟩, rfl, _, _, rfl, by decide +kernel⟩, ⟨_, rfl, ?_⟩, _, rfl, ?_⟩ <;>
  simp [errorFreeBlock, Node.ErrorFree]

end Lol
