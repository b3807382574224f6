import Verif.Lexer.CrlfLemmas
import Verif.Parser.ErrorCount
import Verif.Parser.CoverLemmas
import Verif.Props.SourceText
import Verif.Props.Words
import Verif.Props.LexerRun
import Verif.Props.EditLine

/-! # Properties of `tokenize` and `parse`: Windows line ends (C90) -/

namespace Lol

/-! ## C90: the tokens -/

/-- **C90** With a carriage return before every newline, an ASCII source has the same tokens line by line, except that
every line but the last has one more token at its end, the carriage return, or has it in the comment at its end; and
that strings and comments over several lines have it before every newline in their text. -/
theorem C90_tokens {code : Str} {ts : List Token} (h : tokenize code = .ok (.ok ts)) (ha : ∀ c ∈ code, IsAscii c) :
    ∃ ts', tokenize (crlf code) = .ok (.ok ts') ∧ ∀ l, lineTypes ts' l =
      if 1 ≤ l ∧ l < (lineColumn ts code 0 1 1).1 then endLine ((lineTypes ts l).map crlfType)
      else (lineTypes ts l).map crlfType := by
  rw [tokenize_eq_run] at h
  obtain ⟨q, hs⟩ := run_ok_iff.1 h
  obtain ⟨ts', q', h1, h2, h3⟩ := hs.crlf ha (by simp) .first rfl
  refine ⟨ts', ?_, ?_⟩
  · rw [tokenize_eq_run]
    exact run_ok_iff.2 ⟨q', h1⟩
  · obtain ⟨mid, h4, h5, -⟩ := scan_lineColumn hs ts (fun _ h => h) (fun t h h' => absurd h h')
    rw [List.append_nil] at h4
    subst h4
    have h5 : lineColumn ts code 0 1 1 = _ := h5
    rw [h5]
    exact h3

-- a line with a comment, an empty line, a string over two lines, a last line without newline
example : ∃ ts, tokenize chars!"x BTW a\n\n\"p\nq\"\n5,NOT" = .ok (.ok ts) ∧
    (lineColumn ts chars!"x BTW a\n\n\"p\nq\"\n5,NOT" 0 1 1).1 = 4 ∧
    crlf chars!"x BTW a\n\n\"p\nq\"\n5,NOT" = chars!"x BTW a\r\n\r\n\"p\r\nq\"\r\n5,NOT" ∧
    endLine ((lineTypes ts 1).map crlfType) = [.identifier ['x'], .commentSingleLine chars!" a\r"] ∧
    endLine ((lineTypes ts 2).map crlfType) = [.symbol ['\r']] ∧
    endLine ((lineTypes ts 3).map crlfType) = [.value (.string chars!"p\r\nq"), .symbol ['\r']] := by
  refine ⟨_, rfl, ?_⟩
  decide +kernel

/-- **C90** Whether the tokenizer succeeds does not depend on the line ends. -/
theorem C90_error {code : Str} (ha : ∀ c ∈ code, IsAscii c) :
    (∃ e, tokenize code = .ok (.error e)) ↔ ∃ e, tokenize (crlf code) = .ok (.error e) := by
  constructor
  · rintro ⟨e, h⟩
    rw [tokenize_eq_run] at h
    obtain ⟨ts, rest, q, hs, hu, -⟩ := run_error_iff.1 h
    have hr : ∀ r, rest ≠ '\n' :: r := by
      rintro r rfl
      have := hu.1
      simp [List.cons_prefix_cons] at this
    obtain ⟨ts', q', h1, -⟩ := hs.crlf ha hr .first rfl
    rw [tokenize_eq_run]
    refine ⟨_, run_error_iff.2 ⟨ts', _, q', h1, ⟨?_, ?_⟩, rfl⟩⟩
    · obtain ⟨r, hr⟩ := hu.1
      exact ⟨crlf r, by rw [← hr, crlf_append]; rfl⟩
    · intro u v he
      obtain ⟨u', v', h2, -⟩ := crlf_tldr he
      exact hu.2 u' v' h2
  · rintro ⟨e, h⟩
    obtain ⟨r, hr⟩ := C02_no_panic_on_ascii code ha
    cases r with
    | error e' => exact ⟨e', hr⟩
    | ok ts =>
      obtain ⟨ts', h1, -⟩ := C90_tokens hr ha
      rw [h] at h1
      cases h1

example : (∀ c ∈ chars!"x\nOBTW\ny", IsAscii c) ∧ ∃ e, tokenize chars!"x\nOBTW\ny" = .ok (.error e) :=
  ⟨by decide, _, rfl⟩

/-! ## C90: the errors -/

theorem flatten_lines {ts : List Token} {a : Int} (n : Nat)
    (hs : ts.Pairwise fun t u => t.range.start.line ≤ u.range.start.line)
    (hb : ∀ t ∈ ts, a ≤ t.range.start.line ∧ t.range.start.line < a + n) :
    ((List.range n).map fun i : Nat => ts.filter fun t => t.range.start.line = a + (i : Int)).flatten = ts := by
  induction n generalizing ts a with
  | zero =>
    cases ts with
    | nil => rfl
    | cons t ts =>
      have := hb t (by simp)
      omega
  | succ n ih =>
    have key : ∀ us : List Token, us.Pairwise (fun t u => t.range.start.line ≤ u.range.start.line) →
        (∀ t ∈ us, a ≤ t.range.start.line) →
        us = us.filter (fun t => t.range.start.line = a) ++ us.filter (fun t => a + 1 ≤ t.range.start.line) := by
      intro us h1 h2
      induction us with
      | nil => rfl
      | cons u us ih =>
        rw [List.pairwise_cons] at h1
        have ih := ih h1.2 fun t ht => h2 t (by simp [ht])
        by_cases hu : u.range.start.line = a
        · rw [List.filter_cons_of_pos (by simpa using hu), List.filter_cons_of_neg (by simp; omega),
            List.cons_append, ← ih]
        · have hu' := h2 u (by simp)
          have hall : ∀ t ∈ us, a + 1 ≤ t.range.start.line := fun t ht => by have := h1.1 t ht; omega
          rw [List.filter_cons_of_neg (by simpa using hu), List.filter_cons_of_pos (by simp; omega),
            List.filter_eq_nil_iff.2 (fun t ht => by have := hall t ht; simp; omega),
            List.filter_eq_self.2 (fun t ht => by simpa using hall t ht)]
          rfl
    have hts := key ts hs fun t ht => (hb t ht).1
    have ih := ih (ts := ts.filter fun t => a + 1 ≤ t.range.start.line) (a := a + 1) (hs.filter _) (by
      intro t ht
      rw [List.mem_filter] at ht
      have := hb t ht.1
      have := ht.2
      simp at this
      omega)
    rw [List.range_succ_eq_map, List.map_cons, List.flatten_cons, List.map_map]
    conv => rhs; rw [hts]
    congr 1
    · simp
    · rw [← ih]
      congr 1
      apply List.map_congr_left
      intro i hi
      rw [List.filter_filter]
      apply List.filter_congr
      intro t ht
      simp only [Function.comp, Bool.and_eq_decide, decide_eq_decide, decide_eq_true_eq]
      omega

/-- The carriage return as a token. -/
def Token.IsCarriageReturn (t : Token) : Prop := t.tokenType = .symbol ['\r']

theorem parseStmts_carriage {st : List Token} {t : Token} (hf : Flat st) (hs : ∀ u ∈ st, u.isSeparator = false)
    (ht : t ∈ st) (hr : t.IsCarriageReturn) {nodes : Block} (h : parseStmts ⟨st, []⟩ = .ok nodes) :
    1 ≤ (errorsBlock nodes).length := by
  obtain ⟨a, r, rfl, hk⟩ := hf
  have hone : Alone (joinEllipsis (a :: r)) (a :: r) := alone_of_split (splitFrom_join hs 0)
  rw [← parse_alone hone] at h
  have h0 : stmt (joinEllipsis (a :: r)) 0 = a :: r := hone.1
  have h1 : ¬ errorFreeBlock nodes := by
    refine C73_other (i := 0) (t := t) (fun j hj => ?_) (by rw [h0]; exact ht) ?_ ?_ ?_ h
    · have : j = 0 := by omega
      rw [this, h0]
      simp
    · have hr : t.tokenType = _ := hr
      simp [Token.IsWord, hr]
    · rw [h0]
      rintro ⟨u, w, he, hu⟩
      cases he
      exact hk _ (by decide) hu
    · rw [h0]
      rintro ⟨b, q, he, h5, -⟩
      cases he
      rcases h5 with h5 | h5
      · exact hk _ (by decide) h5
      · exact hk _ (by decide) h5
  rw [errorFreeBlock_errors] at h1
  exact List.length_pos_iff.2 h1

theorem parseEachStmt_carriage {sts : List (List Token)} (hf : ∀ st ∈ sts, Flat st)
    (hs : ∀ st ∈ sts, ∀ u ∈ st, u.isSeparator = false)
    (hr : ∀ st ∈ sts, ∃ t ∈ st, t.IsCarriageReturn) {nodes : Block} (h : parseEachStmt sts = .ok nodes) :
    sts.length ≤ (errorsBlock nodes).length := by
  induction sts generalizing nodes with
  | nil => simp
  | cons st sts ih =>
    obtain ⟨a, b, h1, h2, rfl⟩ := parseEachStmt_split (l := [st]) h
    have ih := ih (fun s h => hf s (by simp [h])) (fun s h => hs s (by simp [h])) (fun s h => hr s (by simp [h])) h2
    obtain ⟨t, ht, hc⟩ := hr st (by simp)
    have h3 : parseStmts ⟨st, []⟩ = .ok a := by
      simp only [parseEachStmt] at h1
      cases h4 : parseStmts ⟨st, []⟩ with
      | ok x =>
        rw [h4] at h1
        have h1 : Out.ok (x ++ []) = .ok a := h1
        simp at h1
        rw [h1]
      | _ => rw [h4] at h1; cases h1
    have := parseStmts_carriage (hf st (by simp)) (hs st (by simp)) ht hc h3
    rw [errorsBlock_append]
    simp
    omega

theorem scan_lines_sorted {code rest : Str} {p q : Position} {ts : List Token} (h : Scan code p ts rest q) :
    ts.Pairwise fun t u => t.range.start.line ≤ u.range.start.line := by
  induction h with
  | refl => exact .nil
  | ws c code p ts code' p' hc hs ih => exact ih
  | tok lex rest ty p ts code' p' hl hs ih =>
    refine .cons (fun u hu => ?_) ih
    exact ((scan_line_le hs).2 u hu).1

theorem statementLines_plain {tss : List (List Token)} {l : Int}
    (h : ∀ (i : Nat) (ts : List Token), tss[i]? = some ts → ts ≠ [] ∧
      (∀ t ∈ ts, t.tokenType ≠ .comma ∧ t.tokenType ≠ .ellipsis) ∧ ∀ t ∈ ts, t.range.start.line = l + i) :
    StatementLines l tss tss := by
  induction tss generalizing l with
  | nil => exact .nil l
  | cons ts tss ih =>
    obtain ⟨h1, h2, h3⟩ := h 0 ts rfl
    refine .cons (.plain h1 h2) (fun t ht => by simpa using h3 t ht) (ih fun i ts hi => ?_)
    obtain ⟨h4, h5, h6⟩ := h (i + 1) ts hi
    exact ⟨h4, h5, fun t ht => by rw [h6 t ht]; omega⟩

theorem endLine_eq {l : List TokenType} (h : ∀ s, .commentSingleLine s ∉ l) : endLine l = l ++ [.symbol ['\r']] := by
  induction l with
  | nil => rfl
  | cons ty l ih =>
    rw [endLine_cons (fun s hs => h s (by simp [hs])), ih fun s hs => h s (by simp [hs])]
    rfl

theorem crlfType_keyword {ty : TokenType} {k : Keyword} (h : crlfType ty = .keyword k) : ty = .keyword k := by
  cases ty with
  | value v => cases v <;> simp [crlfType] at h
  | _ => first | exact h | simp [crlfType] at h

theorem crlfType_separator {ty : TokenType} (h : ty ≠ .comma ∧ ty ≠ .ellipsis) :
    crlfType ty ≠ .comma ∧ crlfType ty ≠ .ellipsis := by
  cases ty with
  | value v => cases v <;> simp [crlfType]
  | _ => first | exact h | simp [crlfType]

/-- **C90** In a program without commas, ellipses and comments in which no line starts with `HAI` or the first word
of a block, every line that ends with a carriage return and a newline gives an error (or `parse` panics). -/
theorem C90_flat {code : Str} {ts : List Token} (h : tokenize code = .ok (.ok ts)) (ha : ∀ c ∈ code, IsAscii c)
    (h1 : ∀ t ∈ ts, t.tokenType ≠ .comma ∧ t.tokenType ≠ .ellipsis ∧ ∀ s, t.tokenType ≠ .commentSingleLine s)
    (h2 : ∀ l ty tys, lineTypes ts l = ty :: tys → ∀ k ∈ blockKeywords, ty ≠ .keyword k)
    {nodes : Block} (hp : tokenizeAndParse (crlf code) = .ok (.ok nodes)) :
    (lineColumn ts code 0 1 1).1 - 1 ≤ (errorsBlock nodes).length := by
  rw [tokenize_eq_run] at h
  obtain ⟨q, hs⟩ := run_ok_iff.1 h
  obtain ⟨ts', q', g1, g2, g3⟩ := hs.crlf ha (by simp) .first rfl
  have ht' : tokenize (crlf code) = .ok (.ok ts') := by
    rw [tokenize_eq_run]
    exact run_ok_iff.2 ⟨q', g1⟩
  have hp : parse ts' = .ok nodes := parse_of_tokenizeAndParse ht' hp
  obtain ⟨mid, h4, h5, -⟩ := scan_lineColumn hs ts (fun _ h => h) (fun t h h' => absurd h h')
  rw [List.append_nil] at h4
  subst h4
  have h5 : lineColumn ts code 0 1 1 = _ := h5
  rw [h5]
  show q.line - 1 ≤ _
  obtain ⟨n, hn⟩ : ∃ n : Nat, q.line = 1 + (n : Int) :=
    ⟨(q.line - 1).toNat, by have : (1 : Int) ≤ q.line := (scan_line_le hs).1; omega⟩
  by_cases hn0 : n = 0
  · omega
  -- the lines
  let f : Nat → List Token := fun i => ts'.filter fun t => t.range.start.line = 1 + (i : Int)
  have hf : ∀ i, (f i).map (·.tokenType) = lineTypes ts' (1 + i) := fun i => rfl
  have hc : ∀ l s, TokenType.commentSingleLine s ∉ (lineTypes ts l).map crlfType := by
    intro l s hm
    obtain ⟨ty, hm, he⟩ := List.mem_map.1 hm
    obtain ⟨t, ht, rfl⟩ := List.mem_map.1 hm
    exact crlfType_comment (h1 t (List.mem_filter.1 ht).1).2.2 s he
  have hlt : ∀ i, i < n → lineTypes ts' (1 + i) = (lineTypes ts (1 + i)).map crlfType ++ [.symbol ['\r']] := by
    intro i hi
    rw [g3, if_pos ⟨by show (1 : Int) ≤ _; omega, by omega⟩, endLine_eq (hc _)]
  have hge : ∀ i, n ≤ i → lineTypes ts' (1 + i) = (lineTypes ts (1 + i)).map crlfType := by
    intro i hi
    rw [g3, if_neg (by omega)]
  have hflat : ∀ i, f i ≠ [] → Flat (f i) := by
    intro i hne
    cases he : f i with
    | nil => exact absurd he hne
    | cons t r =>
      refine ⟨t, r, rfl, ?_⟩
      intro k hk hkt
      have hkt : t.tokenType = .keyword k := hkt
      have e := hf i
      rw [he, List.map_cons, hkt] at e
      have e' : ∃ z, (lineTypes ts (1 + i)).map crlfType = .keyword k :: z := by
        by_cases hi : i < n
        · rw [hlt i hi] at e
          cases hz : (lineTypes ts (1 + i)).map crlfType with
          | nil => rw [hz] at e; simp at e
          | cons y z =>
            rw [hz] at e
            simp only [List.cons_append, List.cons.injEq] at e
            exact ⟨z, by rw [← e.1]⟩
        · rw [hge i (by omega)] at e
          exact ⟨_, e.symm⟩
      obtain ⟨z, e'⟩ := e'
      cases hy : lineTypes ts (1 + i) with
      | nil => rw [hy] at e'; cases e'
      | cons y l =>
        rw [hy] at e'
        simp only [List.map_cons, List.cons.injEq] at e'
        exact h2 _ _ _ hy k hk (crlfType_keyword e'.1)
  have hsep : ∀ i, ∀ t ∈ f i, t.tokenType ≠ .comma ∧ t.tokenType ≠ .ellipsis := by
    intro i t ht
    have hm : t.tokenType ∈ lineTypes ts' (1 + i) := by
      rw [← hf]
      exact List.mem_map_of_mem ht
    have key : ∀ ty ∈ (lineTypes ts (1 + i)).map crlfType, ty ≠ .comma ∧ ty ≠ .ellipsis := by
      intro ty hm
      obtain ⟨ty', hm', rfl⟩ := List.mem_map.1 hm
      obtain ⟨t, ht, rfl⟩ := List.mem_map.1 hm'
      have := h1 t (List.mem_filter.1 ht).1
      exact crlfType_separator ⟨this.1, this.2.1⟩
    by_cases hi : i < n
    · rw [hlt i hi] at hm
      rcases List.mem_append.1 hm with hm | hm
      · exact key _ hm
      · rw [List.mem_singleton.1 hm]
        simp
    · rw [hge i (by omega)] at hm
      exact key _ hm
  have hret : ∀ i, i < n → ∃ t ∈ f i, t.IsCarriageReturn := by
    intro i hi
    have : TokenType.symbol ['\r'] ∈ (f i).map (·.tokenType) := by
      rw [hf, hlt i hi]
      simp
    obtain ⟨t, ht, he⟩ := List.mem_map.1 this
    exact ⟨t, ht, he⟩
  have hne : ∀ i, i < n → f i ≠ [] := by
    intro i hi he
    obtain ⟨t, ht, -⟩ := hret i hi
    rw [he] at ht
    cases ht
  have hline : ∀ i, ∀ t ∈ f i, t.range.start.line = 1 + i := by
    intro i t ht
    simpa using (List.mem_filter.1 ht).2
  -- the statements
  obtain ⟨last, hlast, hl⟩ : ∃ last, (last = [] ∨ (last = [f n] ∧ f n ≠ [])) ∧ f n = last.flatten := by
    by_cases he : f n = []
    · exact ⟨[], .inl rfl, he⟩
    · exact ⟨[f n], .inr ⟨rfl, he⟩, by simp⟩
  let tss := (List.range n).map f ++ last
  have hget : ∀ i st, tss[i]? = some st → st = f i ∧ f i ≠ [] := by
    intro i st hst
    by_cases hi : i < n
    · simp [tss, List.getElem?_append, hi] at hst
      exact ⟨hst.symm, hne i hi⟩
    · simp only [tss] at hst
      rw [List.getElem?_append_right (by simpa using hi)] at hst
      rcases hlast with rfl | ⟨rfl, hx⟩
      · simp at hst
      · simp only [List.length_map, List.length_range] at hst
        have hz := List.getElem?_eq_some_iff.1 hst
        obtain ⟨hz, hz'⟩ := hz
        simp at hz
        have : i = n := by omega
        subst this
        simp at hz'
        exact ⟨hz'.symm, hx⟩
  have hfl : tss.flatten = ts' := by
    have := flatten_lines (a := 1) (n + 1) (scan_lines_sorted g1) (by
      intro t ht
      have := (scan_line_le g1).2 t ht
      have h0 : Position.first.line = 1 := rfl
      omega)
    rw [List.range_succ, List.map_append, List.flatten_append] at this
    simp only [tss]
    rw [List.flatten_append, ← hl]
    simpa using this
  have hsl : StatementLines 1 tss tss := statementLines_plain (by
    intro i st hst
    obtain ⟨rfl, hx⟩ := hget i st hst
    exact ⟨hx, hsep i, hline i⟩)
  have hsplit : (split ts').all = tss := by
    rw [← hfl]
    refine split_lines hsl ?_
    intro he
    have := congrArg List.length he
    simp [tss] at this
    exact hn0 this.1
  have hst : ∀ i, stmt ts' i = tss.getD i [] := fun i => by rw [stmt, hsplit]
  have hps := parse_eachStmt (tokens := ts') (n := tss.length) (by
    intro i hi
    obtain ⟨e, hx⟩ := hget i tss[i] (by simp [hi])
    rw [hst, List.getD_eq_getElem?_getD, List.getElem?_eq_getElem hi]
    simp only [Option.getD_some]
    rw [e]
    exact hflat i hx) (by
    intro i hi
    rw [hst, List.getD_eq_getElem?_getD, List.getElem?_eq_none hi]
    rfl)
  have hall : (List.range tss.length).map (stmt ts') = tss := by
    apply List.ext_getElem
    · simp
    · intro i h1 h2
      simp [hst, List.getD_eq_getElem?_getD, h2]
  rw [hall, hp] at hps
  obtain ⟨a, b, k1, -, rfl⟩ := parseEachStmt_split hps.symm
  have := parseEachStmt_carriage (sts := (List.range n).map f) (by
      intro st hst
      obtain ⟨i, hi, rfl⟩ := List.mem_map.1 hst
      exact hflat i (hne i (List.mem_range.1 hi))) (by
      intro st hst u hu
      obtain ⟨i, hi, rfl⟩ := List.mem_map.1 hst
      exact isSeparator_false (hsep i u hu).1 (hsep i u hu).2) (by
      intro st hst
      obtain ⟨i, hi, rfl⟩ := List.mem_map.1 hst
      exact hret i (List.mem_range.1 hi)) k1
  rw [errorsBlock_append]
  simp at this ⊢
  omega

-- without errors before, an error on each line but the last after
example : ∃ ts nodes nodes', tokenize chars!"GTFO\nVISIBLE x\nGTFO" = .ok (.ok ts) ∧
    (lineColumn ts chars!"GTFO\nVISIBLE x\nGTFO" 0 1 1).1 - 1 = 2 ∧
    (ts.all fun t => t.tokenType ≠ .comma ∧ t.tokenType ≠ .ellipsis) ∧
    (lineTypes ts 1).head? = some (.keyword .GTFO) ∧ (lineTypes ts 2).head? = some (.keyword .VISIBLE) ∧
    (lineTypes ts 3).head? = some (.keyword .GTFO) ∧
    tokenizeAndParse chars!"GTFO\nVISIBLE x\nGTFO" = .ok (.ok nodes) ∧ (errorsBlock nodes).length = 0 ∧
    tokenizeAndParse (crlf chars!"GTFO\nVISIBLE x\nGTFO") = .ok (.ok nodes') ∧ (errorsBlock nodes').length = 2 := by
  refine ⟨_, _, _, rfl, by decide +kernel, by decide +kernel, by decide +kernel, by decide +kernel, by decide +kernel,
    rfl, rfl, rfl, rfl⟩

/-- **C90** An empty line, which is no statement, becomes one, and an error. -/
theorem C90_empty_line : ∃ nodes, tokenizeAndParse chars!"GTFO\n\nGTFO" = .ok (.ok nodes) ∧ errorsBlock nodes = [] ∧
    nodes.length = 2 ∧ ∃ nodes', tokenizeAndParse (crlf chars!"GTFO\n\nGTFO") = .ok (.ok nodes') ∧
    (errorsBlock nodes').length = 2 := by
  refine ⟨_, rfl, rfl, rfl, _, rfl, rfl⟩

end Lol
