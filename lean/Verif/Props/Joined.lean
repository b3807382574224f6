import Verif.Parser.JoinLemmas
import Verif.Props.Append

/-! # What can follow a program (C87) -/

namespace Lol

/-- The statements of `vs` are the `n` statements of `ts`, and then those of `us`. -/
structure Followed (n : Nat) (ts us vs : List Token) : Prop where
  none : ∀ k, n ≤ k → stmt ts k = []
  first : ∀ k, k < n → stmt vs k = stmt ts k
  rest : ∀ k, stmt vs (n + k) = stmt us k

/-- Whatever follows the `n` statements of `ts`: its nodes come after those of `ts`. -/
def Closed (n : Nat) (ts : List Token) (tree : Block) : Prop :=
  ∀ us vs, Followed n ts us vs →
    (stmt us 0 ≠ [] → parse vs = prependNodes tree (parse us)) ∧ (stmt us 0 = [] → parse vs = .ok tree)

/-- The next statement is thrown away, with an error when it is not empty; after it, the program goes on (`ws` is `us`
without its first statement). -/
def TakesStatement (n : Nat) (ts : List Token) (tree : Block) : Prop :=
  ∀ us vs, Followed n ts us vs → ∃ err,
    (if stmt us 0 = [] then err = [] else err = [.astError (.tooManyTokens (stmt us 0))]) ∧
    (stmt us 1 = [] → parse vs = .ok (tree ++ err)) ∧
    ∀ ws, (∀ k, stmt us (k + 1) = stmt ws k) → stmt ws 0 ≠ [] → parse vs = prependNodes (tree ++ err) (parse ws)

/-- Nothing that follows is read. -/
def Finished (n : Nat) (ts : List Token) (tree : Block) : Prop :=
  ∀ us vs, Followed n ts us vs → parse vs = .ok tree

/-- The last node is the error of a construct that is not closed. -/
def EndsUnclosed (tree : Block) : Prop := ∃ pre x, tree = pre ++ [.astError x] ∧ x.Unclosed

/-! ## Lemmas -/

theorem Followed.stmts {n : Nat} {ts us vs : List Token} (h : Followed n ts us vs) :
    parse ts = parseStmts (.of ((List.range n).map (stmt ts))) ∧
    parse vs = parseStmts (.of ((List.range n).map (stmt ts) ++ (split us).all)) := by
  constructor
  · rw [parse_eq]
    apply parseStmts_congr
    intro k
    rw [Stmts.all_of_getD]
    by_cases hk : k < n
    · rw [getD_range _ _ _ hk]; rfl
    · rw [getD_range_none _ _ _ hk]; exact h.none k (by omega)
  · rw [parse_eq]
    apply parseStmts_congr
    intro k
    rw [Stmts.all_of_getD]
    by_cases hk : k < n
    · rw [List.getD_eq_getElem?_getD (l := _ ++ _), List.getElem?_append_left (by simpa using hk),
        ← List.getD_eq_getElem?_getD, getD_range _ _ _ hk]
      exact h.first k hk
    · rw [List.getD_eq_getElem?_getD (l := _ ++ _), List.getElem?_append_right (by simp; omega)]
      obtain ⟨j, rfl⟩ : ∃ j, k = n + j := ⟨k - n, by omega⟩
      simp only [List.length_map, List.length_range, Nat.add_sub_cancel_left]
      rw [← List.getD_eq_getElem?_getD]
      exact h.rest j

private theorem out_map (tree : Block) (r : Read Block) : (r.map (tree ++ ·)).out = prependNodes tree r.out := by
  cases r <;> rfl

private theorem range_cons {n : Nat} (h : 0 < n) (ts : List Token) :
    ∃ c l, (List.range n).map (stmt ts) = c :: l := by
  cases n with
  | zero => omega
  | succ n => rw [List.range_succ_eq_map]; exact ⟨_, _, rfl⟩

/-! ## C87 -/

/-- **C87** What follows a program is read in one of four ways, whatever it is: it is read as if it stood alone; or its
first statement is thrown away; or nothing of it is read; or the program ends in a construct that is not closed. -/
theorem C87_kinds {n : Nat} {ts : List Token} {tree : Block} (hn : 0 < n) (h : parse ts = .ok tree) :
    Closed n ts tree ∨ TakesStatement n ts tree ∨ Finished n ts tree ∨ EndsUnclosed tree := by
  by_cases hf : ∀ k, n ≤ k → stmt ts k = []
  case neg => exact .inl fun us vs hv => absurd hv.none hf
  obtain ⟨c, l, hL⟩ := range_cons hn ts
  have hp : parseStmts (.of ((List.range n).map (stmt ts))) = .ok tree := by
    rw [← h, parse_eq]
    apply parseStmts_congr
    intro k
    rw [Stmts.all_of_getD]
    by_cases hk : k < n
    · rw [getD_range _ _ _ hk]; rfl
    · rw [getD_range_none _ _ _ hk]; exact (hf k (by omega)).symm
  obtain ⟨s', hb⟩ := parseStmts_ok_iff.1 hp
  rw [hL] at hb
  have hmore : ∀ us vs, Followed n ts us vs → parse vs = parseStmts ((Stmts.of (c :: l)).more (split us).all) := by
    intro us vs hv
    rw [hv.stmts.2, hL]
    rfl
  have hof : ∀ us : List Token, Stmts.of (split us).all = split us := fun _ => rfl
  have hcur : ∀ us : List Token, (split us).cur = stmt us 0 := fun _ => rfl
  rcases hb.kinds _ _ rfl with hk | hk | hk | hk
  · refine .inl fun us vs hv => ⟨fun h0 => ?_, fun h0 => ?_⟩
    · obtain ⟨r, hr⟩ := BlockR.total [] (split us)
      have := hk.2 (split us).all r (by rw [hof, stop_root, hcur]; exact h0) (by rw [hof]; exact hr)
      rw [hmore us vs hv, parse_eq us, parseStmts_of_read this, parseStmts_of_read hr, out_map]
    · have := hk.1 (split us).all (by rw [hof, stop_root, hcur]; exact h0)
      rw [hmore us vs hv, parseStmts_of_read this]
      rfl
  · refine .inr (.inl fun us vs hv => ⟨leftoverNodes (stmt us 0), ?_, fun h1 => ?_, fun ws hw h1 => ?_⟩)
    · unfold leftoverNodes
      split <;> rfl
    · have hs : Stop [] (.of (split us).later) := by
        rw [stop_root]
        cases hl : (split us).later with
        | nil => rfl
        | cons c1 l1 =>
          have : stmt us 1 = c1 := by simp [stmt, Stmts.all, hl]
          rw [this] at h1
          exact h1
      have := hk.1 (split us).all (by rw [hof]; exact hs)
      rw [hmore us vs hv, parseStmts_of_read this]
      rfl
    · have hall : ∀ k, (Stmts.of (split us).later).all.getD k [] = (split ws).all.getD k [] := by
        intro k
        rw [Stmts.all_of_getD]
        exact hw k
      have hs : ¬ Stop [] (.of (split us).later) := by
        rw [stop_root]
        have := hall 0
        intro hc
        apply h1
        show (split ws).all.getD 0 [] = []
        rw [← this]
        show (Stmts.of (split us).later).cur = []
        exact hc
      obtain ⟨r, hr⟩ := BlockR.total [] (Stmts.of (split us).later)
      have := hk.2 (split us).all r (by rw [hof]; exact hs) (by rw [hof]; exact hr)
      rw [hmore us vs hv, parseStmts_of_read this, parse_eq ws, ← parseStmts_congr hall, parseStmts_of_read hr, out_map]
      rfl
  · exact .inr (.inr (.inl fun us vs hv => by rw [hmore us vs hv, parseStmts_of_read (hk _)]; rfl))
  · exact .inr (.inr (.inr hk))

example : ∃ ts tree, tokenize chars!"GTFO x" = .ok (.ok ts) ∧ parse ts = .ok tree ∧ ¬ errorFreeBlock tree := by
  refine ⟨_, _, rfl, rfl, ?_⟩
  simp [errorFreeBlock, Node.ErrorFree]

/-- **C87** One test decides: when the statement `GTFO` after the program adds the node of `GTFO` and nothing else, and
the program does not end in a construct that is not closed, then whatever follows it is read as if it stood alone,
errors and panics included. -/
theorem C87_one_test {n : Nat} {ts test : List Token} {g g' : Token} {tree : Block} (hn : 0 < n)
    (h : parse ts = .ok tree) (hu : ¬ EndsUnclosed tree) (hg : g.Is .GTFO) (ht : Followed n ts [g] test)
    (h' : parse test = .ok (tree ++ [.gtfo g'])) : Closed n ts tree := by
  have h0 : stmt [g] 0 = [g] := by
    have hc : g.tokenType ≠ .comma := by rw [hg]; decide
    have he : g.tokenType ≠ .ellipsis := by rw [hg]; decide
    simp [stmt, split, splitFrom, firstLine, hc, he, Stmts.push, Stmts.all]
  rcases C87_kinds hn h with hk | hk | hk | hk
  · exact hk
  · exfalso
    obtain ⟨err, h1, h2, -⟩ := hk _ _ ht
    have h3 : stmt [g] 1 = [] := by
      have hc : g.tokenType ≠ .comma := by rw [hg]; decide
      have he : g.tokenType ≠ .ellipsis := by rw [hg]; decide
      simp [stmt, split, splitFrom, firstLine, hc, he, Stmts.push, Stmts.all]
    rw [h0, if_neg (by simp)] at h1
    have h4 := h2 h3
    rw [h', h1] at h4
    simp at h4
  · exfalso
    have := hk _ _ ht
    rw [h'] at this
    simp at this
  · exact absurd hk hu

/-- For the examples. -/
theorem followed_of {ts us vs : List Token} (h : (split vs).all = (split ts).all ++ (split us).all) :
    Followed (split ts).all.length ts us vs := by
  obtain ⟨h1, h2⟩ := stmts_append h
  refine ⟨fun k hk => ?_, fun k hk => ?_, h2⟩
  · rw [stmt, List.getD_eq_getElem?_getD, List.getElem?_eq_none hk]; rfl
  · rw [h1 k hk]; rfl

-- A loop with an error in its body and an error after its end; then `GTFO`, which is the test.
example : ∃ ts tree g, tokenize chars!"IM IN YR l\nVISIBLE AN\nIM OUTTA YR l x\nGTFO" = .ok (.ok ts) ∧
    ts.getLast? = some g ∧ 0 < (split (ts.take 7)).all.length ∧ parse (ts.take 7) = .ok tree ∧
    ¬ EndsUnclosed tree ∧ g.Is .GTFO ∧ Followed (split (ts.take 7)).all.length (ts.take 7) [g] ts ∧
    parse ts = .ok (tree ++ [.gtfo g]) ∧ ¬ errorFreeBlock tree := by
  obtain ⟨ts, h⟩ : ∃ ts, tokenize chars!"IM IN YR l\nVISIBLE AN\nIM OUTTA YR l x\nGTFO" = .ok (.ok ts) := ⟨_, rfl⟩
  refine ⟨ts, ?_⟩
  rw [h]
  cases h
  refine ⟨_, _, rfl, rfl, by decide +kernel, rfl, ?_, by decide +kernel, followed_of (by decide +kernel), rfl, ?_⟩
  · rintro ⟨pre, x, h1, h2⟩
    have := congrArg List.getLast? h1
    simp at this
    subst this
    cases h2
  · intro h
    exact h.2.1

-- `HAI` takes the statement after it; the test says so.
example : ∃ ts tree g e, tokenize chars!"HAI 1.2\nGTFO" = .ok (.ok ts) ∧ ts.getLast? = some g ∧
    parse (ts.take 2) = .ok tree ∧ Followed (split (ts.take 2)).all.length (ts.take 2) [g] ts ∧
    parse ts = .ok (tree ++ [.astError e]) := by
  obtain ⟨ts, h⟩ : ∃ ts, tokenize chars!"HAI 1.2\nGTFO" = .ok (.ok ts) := ⟨_, rfl⟩
  refine ⟨ts, ?_⟩
  rw [h]
  cases h
  exact ⟨_, _, _, rfl, rfl, rfl, followed_of (by decide +kernel), rfl⟩

-- After an empty statement nothing is read; the test says so.
example : ∃ ts tree g, tokenize chars!"GTFO\n...\n,GTFO\nGTFO" = .ok (.ok ts) ∧ ts.getLast? = some g ∧
    parse (ts.take 4) = .ok tree ∧ Followed (split (ts.take 4)).all.length (ts.take 4) [g] ts ∧
    parse ts = .ok tree := by
  obtain ⟨ts, h⟩ : ∃ ts, tokenize chars!"GTFO\n...\n,GTFO\nGTFO" = .ok (.ok ts) := ⟨_, rfl⟩
  refine ⟨ts, ?_⟩
  rw [h]
  cases h
  exact ⟨_, _, rfl, rfl, rfl, followed_of (by decide +kernel), rfl⟩

/-! ## Texts -/

/-- The tokens of lines after other lines. -/
theorem LinesOf.followed {a b : Str} {ts us : List Token} (ha : LinesOf a ts) (hts : ts ≠ [])
    (hb : tokenize b = .ok (.ok us)) (h0 : stmt us 0 ≠ []) :
    ∃ f : Token → Token,
      f = Token.shift 1 ((lineColumn ts (a ++ ['\n']) 0 1 1).1 - 1) 0 (utf8Len a + 1) (a.length + 1) ∧
      tokenize (a ++ '\n' :: b) = .ok (.ok (ts ++ us.map f)) ∧
      Followed (split ts).all.length ts (us.map f) (ts ++ us.map f) ∧ stmt (us.map f) 0 ≠ [] ∧
      parse (us.map f) = mapOutcome f (parse us) := by
  obtain ⟨h1, h2, h3⟩ := split_append_shift (dc := 0) (db := utf8Len a + 1) (dch := a.length + 1) ha.2.2 hts h0
    (ha.before hb)
  refine ⟨_, rfl, ?_, followed_of h3, h1, h2⟩
  rw [C54_lines ha.1 ha.2.1, hb]
  rfl

/-- **C87** The test for texts: when a line `GTFO` after the lines `a` adds the node of `GTFO` and nothing else, and
the tree of `a` does not end in a construct that is not closed, then any lines `b` can follow that do not begin with
an empty statement. The tree is that of `a` and then that of `b`, shifted; a failure in `b` is that of `b`. -/
theorem C87_text {a b : Str} {ts : List Token} {g : Token} {tree : Block} (ha : LinesOf a ts) (hts : ts ≠ [])
    (h : tokenizeAndParse (a ++ ['\n']) = .ok (.ok tree)) (hu : ¬ EndsUnclosed tree)
    (h' : tokenizeAndParse (a ++ '\n' :: chars!"GTFO") = .ok (.ok (tree ++ [.gtfo g])))
    (hb : ∀ us, tokenize b = .ok (.ok us) → stmt us 0 ≠ []) :
    tokenizeAndParse (a ++ '\n' :: b) =
      prependTree tree (shiftTree 1 ((lineColumn ts (a ++ ['\n']) 0 1 1).1 - 1) 0 (utf8Len a + 1) (a.length + 1)
        (tokenizeAndParse b)) := by
  have hclosed : Closed (split ts).all.length ts tree := by
    obtain ⟨g0, hg0, hk⟩ : ∃ g0 : Token, tokenize chars!"GTFO" = .ok (.ok [g0]) ∧ g0.Is .GTFO := ⟨_, rfl, rfl⟩
    have hs0 : stmt [g0] 0 ≠ [] := by
      cases hg0
      decide +kernel
    obtain ⟨f, hf, h1, h2, -, -⟩ := ha.followed hts hg0 hs0
    have h3 := parse_of_tokenizeAndParse h1 h'
    have h4 := parse_of_tokenizeAndParse ha.1 h
    refine C87_one_test (g := f g0) ?_ h4 hu (by rw [hf]; exact hk) h2 h3
    cases ts with
    | nil => exact absurd rfl hts
    | cons t ts => simp [Stmts.all]
  unfold tokenizeAndParse
  rcases hbt : tokenize b with (e | us) | p | _
  · rw [C54_lines ha.1 ha.2.1, hbt]; rfl
  · obtain ⟨f, hf, h1, h2, h3, h4⟩ := ha.followed hts hbt (hb us hbt)
    rw [h1]
    show Out.bind (parse (ts ++ us.map f)) _ = prependTree tree (shiftTree _ _ _ _ _ (Out.bind (parse us) _))
    rw [(hclosed _ _ h2).1 h3, h4, hf]
    cases parse us <;> rfl
  · rw [C54_lines ha.1 ha.2.1, hbt]; rfl
  · rw [C54_lines ha.1 ha.2.1, hbt]; rfl

-- A line with a token too many, and then a line with a `MAEK`, on which `parse` panics: the outcome for the whole text
-- is that panic.
example : ∃ ts g tree, LinesOf chars!"GTFO x" ts ∧ ts ≠ [] ∧
    tokenizeAndParse (chars!"GTFO x" ++ ['\n']) = .ok (.ok tree) ∧ ¬ EndsUnclosed tree ∧
    tokenizeAndParse (chars!"GTFO x" ++ '\n' :: chars!"GTFO") = .ok (.ok (tree ++ [.gtfo g])) ∧
    ¬ errorFreeBlock tree ∧ (∀ us, tokenize chars!"VISIBLE 1 MAEK a" = .ok (.ok us) → stmt us 0 ≠ []) ∧
    tokenizeAndParse (chars!"GTFO x" ++ '\n' :: chars!"VISIBLE 1 MAEK a") = .panic .todoMaek := by
  obtain ⟨a, b, g, h⟩ : ∃ a b g, tokenizeAndParse (chars!"GTFO x" ++ '\n' :: chars!"GTFO") =
    .ok (.ok [a, .astError (.tooManyTokens b), .gtfo g]) := ⟨_, _, _, rfl⟩
  refine ⟨_, g, [a, .astError (.tooManyTokens b)], ⟨rfl, ?_⟩, ?_, ?_, ?_, h, ?_, ?_, rfl⟩
  · decide +kernel
  · decide +kernel
  · cases h
    rfl
  · rintro ⟨pre, x, h1, h2⟩
    have := congrArg List.getLast? h1
    simp at this
    subst this
    cases h2
  · intro h
    exact h.2.1
  · intro us h
    cases h
    decide +kernel

end Lol
