import Verif.Parser.ConstructSpec
import Verif.Props.ParserMap
import Verif.Props.ParserFlat
import Verif.Props.ParserProgram
import Verif.Props.LexerCompose
import Verif.Parser.ProgramComplete

/-! # Properties of `parse` and `tokenize_and_parse`: programs put together (C56) -/

namespace Lol

/-! ## C56: programs one after the other -/

/-- `Pieces L nodes`: the statements `L` are a sequence of constructs without an error and of statements that open no
block, in which there may be errors; `nodes` are their trees. -/
inductive Pieces : List (List Token) → Block → Prop
  | nil : Pieces [] []
  | node {a node rest nodes} : NodeG a node → Pieces rest nodes → Pieces (a ++ rest) (node :: nodes)
  | flat {st one x rest nodes} : Flat st → Alone one st → parse one = .ok x → Pieces rest nodes →
      Pieces (st :: rest) (x ++ nodes)

/-- Nodes in front of an outcome of `parse`. -/
def prependNodes (nodes : Block) : Out Block → Out Block
  | .ok more => .ok (nodes ++ more)
  | .panic p => .panic p
  | .outOfFuel => .outOfFuel

theorem parseStmts_nodeG {L A : List (List Token)} {node : Node} (h : NodeG L node) :
    parseStmts (.of (L ++ A)) = prependNodes [node] (parseRest A) := by
  obtain ⟨first, tail, rest, rfl, -, h⟩ := h.complete
  obtain ⟨n0, h⟩ := h A
  obtain ⟨s', h1, h2, h3⟩ := h (n0 + (Stmts.of A).size + 2) (by omega)
  have hr : parseRest A ≠ .outOfFuel := by
    unfold parseRest
    split
    · intro h; cases h
    · unfold parseStmts
      have := exec_enough (stop := stopRoot) (Nat.le_refl ((Stmts.of A).size + 2))
      cases he : exec (parseBlock ((Stmts.of A).size + 2) stopRoot) (.of A) with
      | outOfFuel => exact absurd he this
      | _ => intro h; cases h
  refine parseStmts_of (n := n0 + (Stmts.of A).size + 2 + 1) ?_ ?_
  · rw [List.cons_append, Stmts.of_cons, parseBlock_cons, exec_toResult, h1]
    simp only [Res.toResult_ok, Res.andThen_ok]
    rw [exec_blockTail_nil h2, h3]
    unfold parseRest
    cases hc : (Stmts.of A).cur with
    | nil => rfl
    | cons t r =>
      dsimp only
      rw [if_neg (by simp [stopRoot]), if_neg (by simp)]
      rw [← parseStmts_eq (n := n0 + (Stmts.of A).size + 2) (by omega)]
      cases he : exec (parseBlock (n0 + (Stmts.of A).size + 2) stopRoot) (.of A) with
      | err e s => exact absurd he (parseBlock_no_err _ _ _ _ _)
      | _ => rfl
  · cases h : parseRest A with
    | outOfFuel => exact absurd h hr
    | _ => intro h; cases h

theorem parseRest_of_cur {L : List (List Token)} (h : L = [] ∨ (Stmts.of L).cur ≠ []) :
    parseRest L = parseStmts (.of L) := by
  unfold parseRest
  rcases h with rfl | h
  · rfl
  · rw [if_neg h]

theorem NodeG.cur {L A : List (List Token)} {node : Node} (h : NodeG L node) : (Stmts.of (L ++ A)).cur ≠ [] := by
  obtain ⟨first, tail, rest, rfl, -, -⟩ := h.complete
  simp [Stmts.of]

theorem Pieces.cur {L A : List (List Token)} {nodes : Block} (h : Pieces L nodes)
    (hA : A = [] ∨ (Stmts.of A).cur ≠ []) : L ++ A = [] ∨ (Stmts.of (L ++ A)).cur ≠ [] := by
  cases h with
  | nil => exact hA
  | node h _ => right; rw [List.append_assoc]; exact h.cur
  | flat h _ =>
    obtain ⟨t, r, rfl, -⟩ := h
    right
    simp [Stmts.of]

theorem Pieces.parse {L A : List (List Token)} {nodes : Block} (h : Pieces L nodes)
    (hA : A = [] ∨ (Stmts.of A).cur ≠ []) : parseStmts (.of (L ++ A)) = prependNodes nodes (parseStmts (.of A)) := by
  induction h with
  | nil => cases h : parseStmts (.of A) <;> simp [h, prependNodes]
  | @node a node rest nodes h1 h2 ih =>
    rw [List.append_assoc, parseStmts_nodeG h1, parseRest_of_cur (h2.cur hA), ih]
    cases parseStmts (.of A) <;> rfl
  | @flat st one x rest nodes h1 h2 h3 h4 ih =>
    obtain ⟨t, r, rfl, ht⟩ := h1
    rw [List.cons_append, Stmts.of_cons, parseStmts_flat ht, ← parse_alone h2, h3, parseRest_of_cur (h4.cur hA), ih]
    cases parseStmts (.of A) <;> simp [prependNodes, Out.bind]

/-- **C56** When the statements of `vs` are `L` followed by those of `us`, and `L` is made of pieces, then the tree is
that of the pieces followed by that of `us`, whatever `us` is. -/
theorem C56_append {L : List (List Token)} {nodes : Block} {us vs : List Token} (hL : Pieces L nodes)
    (h1 : ∀ k, k < L.length → stmt vs k = L.getD k []) (h2 : ∀ k, stmt vs (L.length + k) = stmt us k)
    (h3 : stmt us 0 ≠ []) : parse vs = prependNodes nodes (parse us) := by
  have hu : (Stmts.of (split us).all) = split us := rfl
  rw [parse_eq, parse_eq]
  conv => rhs; rw [← hu]
  rw [← hL.parse (A := (split us).all) (.inr h3)]
  apply parseStmts_congr
  intro k
  have he : (Stmts.of (L ++ (split us).all)).all = L ++ (split us).all := by
    cases L with
    | nil => rfl
    | cons a L => rfl
  rw [he]
  show stmt vs k = _
  by_cases hk : k < L.length
  · rw [h1 k hk]
    simp [List.getD_eq_getElem?_getD, List.getElem?_append, hk]
  · obtain ⟨j, rfl⟩ : ∃ j, k = L.length + j := ⟨k - L.length, by omega⟩
    rw [h2 j]
    simp [stmt, List.getD_eq_getElem?_getD, List.getElem?_append_right]

theorem stmts_append {L : List (List Token)} {us vs : List Token} (h : (split vs).all = L ++ (split us).all) :
    (∀ k, k < L.length → stmt vs k = L.getD k []) ∧ ∀ k, stmt vs (L.length + k) = stmt us k := by
  refine ⟨fun k hk => ?_, fun k => ?_⟩
  · rw [stmt, h]
    simp [List.getD_eq_getElem?_getD, List.getElem?_append, hk]
  · rw [stmt, h]
    simp [stmt, List.getD_eq_getElem?_getD, List.getElem?_append_right]

/-- A token on a line (for the example below). -/
def onLine (line : Int) (ty : TokenType) : Token := ⟨ty, ⟨⟨line, 0, 0, 0⟩, ⟨line, 0, 0, 0⟩⟩⟩

-- `GTFO`, `GIMMEH 12` with an error, then `VISIBLE SUM OF` with an error
example : ∃ a b c u v, a = onLine 1 (.keyword .GTFO) ∧ b = onLine 2 (.keyword .GIMMEH) ∧
    c = onLine 2 (.value (.number (.int 12))) ∧ u = onLine 3 (.keyword .VISIBLE) ∧ v = onLine 3 (.keyword .SUM_OF) ∧
    Pieces [[a], [b, c]] [.gtfo a, .astError (.unexpectedToken c)] ∧
    (∀ k, k < [[a], [b, c]].length → stmt [a, b, c, u, v] k = [[a], [b, c]].getD k []) ∧
    (∀ k, stmt [a, b, c, u, v] ([[a], [b, c]].length + k) = stmt [u, v] k) ∧ stmt [u, v] 0 ≠ [] ∧
    parse [a, b, c, u, v] = prependNodes [.gtfo a, .astError (.unexpectedToken c)] (parse [u, v]) := by
  refine ⟨_, _, _, _, _, rfl, rfl, rfl, rfl, rfl, ?_, ?_⟩
  · have h : Alone [onLine 2 (.keyword .GIMMEH), onLine 2 (.value (.number (.int 12)))]
        [onLine 2 (.keyword .GIMMEH), onLine 2 (.value (.number (.int 12)))] := alone_of_split (by decide +kernel)
    exact .node (a := [[_]]) (.simple (.gtfo (by decide)))
      (.flat (x := [.astError _]) ⟨_, _, rfl, by decide⟩ h rfl .nil)
  · have h := stmts_append (L := [[onLine 1 (.keyword .GTFO)],
      [onLine 2 (.keyword .GIMMEH), onLine 2 (.value (.number (.int 12)))]])
      (us := [onLine 3 (.keyword .VISIBLE), onLine 3 (.keyword .SUM_OF)])
      (vs := [onLine 1 (.keyword .GTFO), onLine 2 (.keyword .GIMMEH), onLine 2 (.value (.number (.int 12))),
        onLine 3 (.keyword .VISIBLE), onLine 3 (.keyword .SUM_OF)]) (by decide +kernel)
    exact ⟨h.1, h.2, by decide +kernel, rfl⟩

theorem Pieces.of_nodesG : ∀ {L : List (List Token)} {nodes : Block}, NodesG L nodes → Pieces L nodes
  | _, _, .nil => .nil
  | _, _, .cons h1 h2 => .node h1 (Pieces.of_nodesG h2)

theorem NodeG.last {L : List (List Token)} {node : Node} (h : NodeG L node) (hn : ¬ node.TakesNext) :
    ∃ M t r, L = M ++ [t :: r] := by
  cases h with
  | simple h =>
    obtain ⟨first, tail, rfl, -⟩ := h.complete []
    exact ⟨[], _, _, rfl⟩
  | hai => exact absurd trivial hn
  | @loop t label ops conds op cond body nodes c endLabel => exact ⟨_ :: body, c, [endLabel], rfl⟩
  | function => exact absurd trivial hn
  | switch => exact absurd trivial hn
  | @conditional t q yes yaRly maybe mebbes no noWai c => exact ⟨[t, q] :: (yes ++ (maybe ++ no)), c, [], by simp⟩

theorem NodesG.last : ∀ {L : List (List Token)} {nodes : Block}, NodesG L nodes →
    (∀ node, nodes.getLast? = some node → ¬ node.TakesNext) → L = [] ∨ ∃ M t r, L = M ++ [t :: r]
  | _, _, .nil, _ => .inl rfl
  | _, _, .cons (node := node) (nodes := nodes) h1 h2, hn => by
    right
    rcases h2.last (fun n hl => hn n (by
      cases nodes with
      | nil => simp at hl
      | cons m nodes => rwa [List.getLast?_cons_cons])) with rfl | ⟨M, t, r, rfl⟩
    · have : nodes = [] := by
        generalize hL : ([] : List (List Token)) = L at h2
        cases h2 with
        | nil => rfl
        | cons h3 h4 =>
          obtain ⟨first, tail, rest, rfl, -, -⟩ := h3.complete
          cases hL
      subst this
      rw [List.append_nil]
      exact h1.last (hn _ (by simp))
    · exact ⟨_ ++ M, t, r, by rw [List.append_assoc]⟩

theorem nodesG_of_error_free {ts : List Token} {nodes : Block} {n : Nat} (h : parse ts = .ok nodes)
    (hef : errorFreeBlock nodes) (hlast : ∀ node, nodes.getLast? = some node → ¬ node.TakesNext)
    (hn : ∀ k, k < n → stmt ts k ≠ []) (hend : ∀ k, n ≤ k → stmt ts k = []) :
    ∃ M, NodesG M nodes ∧ M.length = n ∧ ∀ k, k < n → stmt ts k = M.getD k [] := by
  obtain ⟨L, hL, hi, hl⟩ := (C38_error_free_iff ts nodes).1 ⟨h, hef⟩
  have hle : n ≤ L.length := by
    rcases Nat.lt_or_ge L.length n with hlt | hge
    · exact absurd hl (hn _ hlt)
    · exact hge
  cases hL with
  | @nodes a node rest nodes h4 h5 =>
    refine ⟨_, .cons h4 h5, ?_, fun k hk => hi k (by omega)⟩
    rcases (NodesG.cons h4 h5).last hlast with he | ⟨M, t, r, he⟩
    · obtain ⟨first, tail, rest, rfl, -, -⟩ := h4.complete
      cases he
    · rw [he] at hi hle ⊢
      rcases Nat.lt_or_ge n (M ++ [t :: r]).length with hlt | hge
      · have := hi M.length (by simp)
        rw [hend _ (by simp at hlt; omega)] at this
        simp [List.getD_eq_getElem?_getD] at this
      · omega
  | @skip rest nodes h4 =>
    have h0 := hi 0 (by simp)
    have hn0 : n = 0 := by
      rcases Nat.eq_zero_or_pos n with h | h
      · exact h
      · exact absurd h0 (hn 0 h)
    subst hn0
    cases h4 with
    | nil => exact ⟨[], .nil, rfl, fun k hk => absurd hk (Nat.not_lt_zero _)⟩
    | @cons a node rest nodes h4 h5 =>
      obtain ⟨first, tail, rest', rfl, -, -⟩ := h4.complete
      have := hi 1 (by simp)
      rw [hend _ (by omega)] at this
      cases this

/-- **C56** A token list with an error-free tree, without empty statements, and whose last node does not take the next
statement (as `HAI`, functions and switches do), can be followed by anything. -/
theorem C56_error_free {ts us vs : List Token} {nodes : Block} {n : Nat} (h : parse ts = .ok nodes)
    (hef : errorFreeBlock nodes) (hlast : ∀ node, nodes.getLast? = some node → ¬ node.TakesNext)
    (hn : ∀ k, k < n → stmt ts k ≠ []) (hend : ∀ k, n ≤ k → stmt ts k = [])
    (h1 : ∀ k, k < n → stmt vs k = stmt ts k) (h2 : ∀ k, stmt vs (n + k) = stmt us k) (h3 : stmt us 0 ≠ []) :
    parse vs = prependNodes nodes (parse us) := by
  obtain ⟨M, hM, rfl, hk⟩ := nodesG_of_error_free h hef hlast hn hend
  exact C56_append (.of_nodesG hM) (fun k h => by rw [h1 k h, hk k h]) h2 h3

private def loopTokens : List Token :=
  [onLine 1 (.keyword .IM_IN_YR), onLine 1 (.identifier chars!"a"), onLine 2 (.keyword .GTFO),
    onLine 3 (.keyword .IM_OUTTA_YR), onLine 3 (.identifier chars!"a")]

private def badTokens : List Token := [onLine 8 (.keyword .VISIBLE), onLine 8 (.keyword .AN)]

-- a loop, followed by a statement with an error
example : ∃ nodes, parse loopTokens = .ok nodes ∧ errorFreeBlock nodes ∧
    (∀ node, nodes.getLast? = some node → ¬ node.TakesNext) ∧
    (∀ k, k < 3 → stmt loopTokens k ≠ []) ∧ (∀ k, 3 ≤ k → stmt loopTokens k = []) ∧
    (∀ k, k < 3 → stmt (loopTokens ++ badTokens) k = stmt loopTokens k) ∧
    (∀ k, stmt (loopTokens ++ badTokens) (3 + k) = stmt badTokens k) ∧ stmt badTokens 0 ≠ [] := by
  refine ⟨_, rfl, ?_, ?_, by decide +kernel, ?_, by decide +kernel, ?_, by decide +kernel⟩
  · repeat' constructor
  · intro node h
    cases h
    exact id
  · intro k hk
    have h : (split loopTokens).all.length = 3 := by decide +kernel
    rw [stmt, List.getD_eq_getElem?_getD, List.getElem?_eq_none (by omega)]
    rfl
  · exact fun k => (stmts_append (L := (split loopTokens).all) (by decide +kernel)).2 k

/-! ## Sources -/

theorem split_append {lu : Int} {us : List Token} (hu : ∀ u r, us = u :: r → u.range.start.line = lu)
    (ts : List Token) :
    (∀ t ∈ ts, t.range.start.line ≠ lu) → ts.getLast?.map (·.tokenType) ≠ some .ellipsis →
    (∀ l, (ts = [] → l ≠ lu) → splitFrom (ts ++ us) l = ⟨(splitFrom ts l).cur, (splitFrom ts l).later ++ splitGap us⟩) ∧
    splitGap (ts ++ us) = splitGap ts ++ splitGap us := by
  induction ts with
  | nil =>
    intro _ _
    refine ⟨fun l hl => ?_, by simp [splitGap]⟩
    cases us with
    | nil => simp [splitFrom, splitGap]
    | cons u us =>
      have hne : u.range.start.line ≠ l := fun h => hl rfl (h.symm.trans (hu u us rfl))
      rw [List.nil_append, splitFrom, splitGap]
      by_cases hc : u.tokenType = .comma
      · simp [hc, splitFrom]
      · simp [hc, hne, splitFrom]
  | cons t ts ih =>
    intro hts hlast
    have hts' : ∀ u ∈ ts, u.range.start.line ≠ lu := fun u h => hts u (by simp [h])
    have hlast' : ts.getLast?.map (·.tokenType) ≠ some .ellipsis := by
      cases ts with
      | nil => simp
      | cons u ts => rwa [List.getLast?_cons_cons] at hlast
    obtain ⟨ih1, ih2⟩ := ih hts' hlast'
    have ht := hts t (by simp)
    have hell : t.tokenType = .ellipsis →
        ∀ l, firstLine (ts ++ us) l = firstLine ts l ∧ (ts = [] → firstLine ts l ≠ lu) := by
      intro he l
      cases ts with
      | nil => simp [he] at hlast
      | cons u ts => simp [firstLine]
    have e1 : t.tokenType = .ellipsis → ∀ l, splitFrom (ts ++ us) (firstLine (ts ++ us) l) =
        ⟨(splitFrom ts (firstLine ts l)).cur, (splitFrom ts (firstLine ts l)).later ++ splitGap us⟩ := fun he l => by
      rw [(hell he l).1]
      exact ih1 _ (hell he l).2
    have e2 := ih1 t.range.start.line fun _ => ht
    refine ⟨fun l hl => ?_, ?_⟩
    · rw [List.cons_append, splitFrom, splitFrom]
      by_cases hc : t.tokenType = .comma
      · simp [hc, ih2]
      · by_cases hn : t.range.start.line = l
        · subst hn
          by_cases he : t.tokenType = .ellipsis
          · simp [he, e1 he]
          · simp [hc, he, e2, Stmts.push]
        · by_cases he : t.tokenType = .ellipsis
          · simp [hn, he, e1 he, Stmts.all]
          · simp [hc, hn, he, e2, Stmts.push, Stmts.all]
    · rw [List.cons_append, splitGap, splitGap]
      by_cases hc : t.tokenType = .comma
      · simp [hc, ih2]
      · by_cases he : t.tokenType = .ellipsis
        · simp [he, e1 he, Stmts.all]
        · simp [hc, he, e2, Stmts.push, Stmts.all]

theorem splitGap_of_stmt {us : List Token} (h : stmt us 0 ≠ []) : splitGap us = (split us).all := by
  cases us with
  | nil => exact absurd rfl h
  | cons u us =>
    by_cases hc : u.tokenType = .comma
    · refine absurd ?_ h
      simp [stmt, split, splitFrom, hc, Stmts.all]
    · simp [split, splitFrom, splitGap, hc, firstLine]
      split <;> rfl

theorem lineColumn_le (ts : List Token) (s : Str) (o l c : Int) : l ≤ (lineColumn ts s o l c).1 := by
  induction s generalizing o l c with
  | nil => exact Int.le_refl _
  | cons ch s ih =>
    rw [lineColumn]
    split
    · have := ih (o + 1) (l + 1) 1
      omega
    · exact ih _ _ _

theorem lineColumn_prefix {ts : List Token} {pre post : Str} {o l c : Int} :
    (lineColumn ts pre o l c).1 ≤ (lineColumn ts (pre ++ post) o l c).1 := by
  rw [lineColumn_append]
  exact lineColumn_le _ _ _ _ _

theorem split_append_shift {ts us : List Token} {dl dc db dch : Int}
    (hell : ts.getLast?.map (·.tokenType) ≠ some .ellipsis) (hts : ts ≠ []) (h0 : stmt us 0 ≠ [])
    (hne : ∀ t ∈ ts, ∀ u ∈ us, t.range.start.line < u.range.start.line + dl) :
    stmt (us.map (Token.shift 1 dl dc db dch)) 0 ≠ [] ∧
    parse (us.map (Token.shift 1 dl dc db dch)) = mapOutcome (Token.shift 1 dl dc db dch) (parse us) ∧
    (split (ts ++ us.map (Token.shift 1 dl dc db dch))).all =
      (split ts).all ++ (split (us.map (Token.shift 1 dl dc db dch))).all := by
  have hline : ∀ t : Token, (Token.shift 1 dl dc db dch t).range.start.line = t.range.start.line + dl := fun _ => rfl
  have hty : ∀ t : Token, (Token.shift 1 dl dc db dch t).tokenType.kind = t.tokenType.kind := fun _ => rfl
  generalize Token.shift 1 dl dc db dch = f at *
  have hl : ∀ t ∈ us, ∀ u ∈ us,
      ((f t).range.start.line = (f u).range.start.line ↔ t.range.start.line = u.range.start.line) :=
    fun t _ u _ => by rw [hline, hline]; omega
  have hus : stmt (us.map f) 0 ≠ [] := by
    rw [stmt, split_map_lines hty hl]
    show (split us).cur.map _ ≠ []
    intro he
    exact h0 (List.map_eq_nil_iff.1 he)
  refine ⟨hus, C55_map hty hl, ?_⟩
  cases us with
  | nil => exact absurd rfl h0
  | cons u us =>
    have hsa := split_append (lu := u.range.start.line + dl) (us := (u :: us).map f)
      (by rintro v r hv; cases hv; exact hline u) ts (fun t ht => by have := hne t ht u (by simp); omega) hell
    cases ts with
    | nil => exact absurd rfl hts
    | cons t ts =>
      rw [split, List.cons_append, firstLine, ← List.cons_append, hsa.1 _ (by simp), ← splitGap_of_stmt hus]
      rfl

theorem parse_append_shift {ts us : List Token} {nodes : Block} {dl dc db dch : Int}
    (hell : ts.getLast?.map (·.tokenType) ≠ some .ellipsis)
    (hp : Pieces (split ts).all nodes) (h0 : stmt us 0 ≠ [])
    (hne : ∀ t ∈ ts, ∀ u ∈ us, t.range.start.line < u.range.start.line + dl) :
    parse (ts ++ us.map (Token.shift 1 dl dc db dch)) =
      prependNodes nodes (mapOutcome (Token.shift 1 dl dc db dch) (parse us)) := by
  have hts : ts ≠ [] := by
    rintro rfl
    rcases hp.cur (A := []) (.inl rfl) with h | h
    · cases h
    · exact absurd rfl h
  obtain ⟨hus, hmap, hsplit⟩ := split_append_shift (dc := dc) (db := db) (dch := dch) hell hts h0 hne
  have hs := stmts_append hsplit
  rw [C56_append hp hs.1 hs.2 hus, hmap]

/-- The tree of the sources `a` and `b`: the nodes of `a`, then those of `b`. -/
def prependTree (nodes : Block) : Out (Except TokenError Block) → Out (Except TokenError Block)
  | .ok (.ok x) => .ok (.ok (nodes ++ x))
  | other => other

/-- **C56** When the lines `a` are made of pieces, no token takes the newline at their end, the last token is not an
ellipsis, and `b` does not begin with an empty statement, then the tree of `a` followed by the lines `b` is the nodes
of `a` followed by the tree of `b`, shifted; an error or a panic in `b` is that of `b`. -/
theorem C56_sources {a b : Str} {ts : List Token} {nodes : Block} (h : tokenize (a ++ ['\n']) = .ok (.ok ts))
    (hend : ∀ t ∈ ts, t.range.stop.bytes ≤ utf8Len a) (hell : ts.getLast?.map (·.tokenType) ≠ some .ellipsis)
    (hp : Pieces (split ts).all nodes) (hb : ∀ us, tokenize b = .ok (.ok us) → stmt us 0 ≠ []) :
    tokenizeAndParse (a ++ ['\n']) = .ok (.ok nodes) ∧
    tokenizeAndParse (a ++ '\n' :: b) =
      prependTree nodes (shiftTree 1 ((lineColumn ts (a ++ ['\n']) 0 1 1).1 - 1) 0 (utf8Len a + 1) (a.length + 1)
        (tokenizeAndParse b)) := by
  constructor
  · unfold tokenizeAndParse
    rw [h]
    have : parse ts = .ok nodes := by
      have := hp.parse (A := []) (.inl rfl)
      rw [List.append_nil] at this
      rw [parse_eq]
      refine Eq.trans this ?_
      show Out.ok (nodes ++ []) = _
      rw [List.append_nil]
    show Out.bind (parse ts) _ = _
    rw [this]
    rfl
  unfold tokenizeAndParse
  rw [C54_lines h hend]
  unfold joinLines
  generalize hdl : (lineColumn ts (a ++ ['\n']) 0 1 1).1 - 1 = dl
  rcases hbt : tokenize b with (e | us) | p | _
  · rfl
  · have h0 := hb us hbt
    have hne : ∀ t ∈ ts, ∀ u ∈ us, t.range.start.line < u.range.start.line + dl := by
      intro t ht u hu
      have hu1 : 1 ≤ u.range.start.line := by
        obtain ⟨pre, lex, post, h1, -, h3, -⟩ := C05_offsets_exact hbt hu
        rw [List.append_assoc] at h1
        have := (C07_exact hbt hu h1 h3).1
        rw [(Prod.mk.inj this).1]
        exact lineColumn_le _ _ _ _ _
      have ht1 : t.range.start.line + 1 ≤ (lineColumn ts (a ++ ['\n']) 0 1 1).1 := by
        obtain ⟨pre, lex, post, h1, h2, h3, -, h5, -⟩ := C05_offsets_exact h ht
        have hb1 := hend t ht
        rw [h5] at hb1
        have hpost : post ≠ [] := by
          rintro rfl
          rw [List.append_nil] at h1
          rw [← h1, utf8Len_append] at hb1
          have : utf8Len ['\n'] = 1 := rfl
          omega
        obtain ⟨post', c, rfl⟩ : ∃ post' c, post = post' ++ [c] :=
          ⟨post.dropLast, post.getLast hpost, (List.dropLast_concat_getLast hpost).symm⟩
        rw [← List.append_assoc] at h1
        obtain ⟨ha, -⟩ := List.append_inj' h1 rfl
        have hl := (Prod.mk.inj (C07_exact h ht (by rw [h1, List.append_assoc, List.append_assoc]) h3).1).1
        have h6 : (lineColumn ts pre 0 1 1).1 ≤ (lineColumn ts a 0 1 1).1 := by
          rw [ha, List.append_assoc]
          exact lineColumn_prefix
        have hout : Outside ts (0 + utf8Len a) := by
          intro t ht hin
          have := hend t ht
          omega
        rw [lineColumn_append, lineColumn, if_pos ⟨rfl, hout⟩, lineColumn]
        omega
      omega
    show Out.bind (parse (ts ++ us.map (Token.shift 1 dl 0 (utf8Len a + 1) (a.length + 1)))) _ = _
    rw [parse_append_shift hell hp h0 hne]
    show _ = prependTree nodes (shiftTree 1 dl 0 (utf8Len a + 1) (a.length + 1) (Out.bind (parse us) _))
    cases parse us <;> rfl
  · rfl
  · rfl

/-- **C56** Two sources, line by line: when the tree of the lines `a` is free of errors and does not end in a node
that takes the next statement, no statement of `a` is empty, and `b` does not begin with an empty statement, then the
tree of `a` followed by `b` is the tree of `a` followed by that of `b`, shifted. -/
theorem C56_sources_error_free {a b : Str} {ts : List Token} {nodes : Block}
    (h : tokenize (a ++ ['\n']) = .ok (.ok ts)) (hend : ∀ t ∈ ts, t.range.stop.bytes ≤ utf8Len a)
    (hell : ts.getLast?.map (·.tokenType) ≠ some .ellipsis) (hst : ∀ st ∈ (split ts).all, st ≠ [])
    (hnodes : tokenizeAndParse (a ++ ['\n']) = .ok (.ok nodes)) (hef : errorFreeBlock nodes)
    (hlast : ∀ node, nodes.getLast? = some node → ¬ node.TakesNext)
    (hb : ∀ us, tokenize b = .ok (.ok us) → stmt us 0 ≠ []) :
    tokenizeAndParse (a ++ '\n' :: b) =
      prependTree nodes (shiftTree 1 ((lineColumn ts (a ++ ['\n']) 0 1 1).1 - 1) 0 (utf8Len a + 1) (a.length + 1)
        (tokenizeAndParse b)) := by
  have hparse : parse ts = .ok nodes := by
    unfold tokenizeAndParse at hnodes
    rw [h] at hnodes
    change Out.bind (parse ts) _ = _ at hnodes
    cases hp : parse ts <;> rw [hp] at hnodes <;> cases hnodes
    rfl
  obtain ⟨M, hM, hlen, hk⟩ := nodesG_of_error_free (n := (split ts).all.length) hparse hef hlast
    (fun k hk => by
      rw [stmt, List.getD_eq_getElem?_getD, List.getElem?_eq_getElem hk]
      exact hst _ (List.getElem_mem hk))
    (fun k hk => by
      rw [stmt, List.getD_eq_getElem?_getD, List.getElem?_eq_none hk]
      rfl)
  have he : (split ts).all = M := by
    apply List.ext_getElem hlen.symm
    intro k h1 h2
    have := hk k h1
    rwa [stmt, List.getD_eq_getElem?_getD, List.getD_eq_getElem?_getD, List.getElem?_eq_getElem h1,
      List.getElem?_eq_getElem h2] at this
  exact (C56_sources h hend hell (he ▸ .of_nodesG hM) hb).2

-- a loop on three lines, then a line with an error in it
example : ∃ ts nodes, tokenize (chars!"IM IN YR a\nGTFO\nIM OUTTA YR a" ++ ['\n']) = .ok (.ok ts) ∧
    (∀ t ∈ ts, t.range.stop.bytes ≤ utf8Len chars!"IM IN YR a\nGTFO\nIM OUTTA YR a") ∧
    ts.getLast?.map (·.tokenType) ≠ some .ellipsis ∧ (∀ st ∈ (split ts).all, st ≠ []) ∧
    tokenizeAndParse (chars!"IM IN YR a\nGTFO\nIM OUTTA YR a" ++ ['\n']) = .ok (.ok nodes) ∧ errorFreeBlock nodes ∧
    (∀ node, nodes.getLast? = some node → ¬ node.TakesNext) ∧
    (∀ us, tokenize chars!"VISIBLE SUM OF\n" = .ok (.ok us) → stmt us 0 ≠ []) := by
  refine ⟨_, _, rfl, ?_, ?_, ?_, rfl, ?_, ?_, ?_⟩
  · decide +kernel
  · decide +kernel
  · decide +kernel
  · repeat' constructor
  · intro node h
    cases h
    exact id
  · intro us h
    cases h
    decide +kernel

private theorem pieces_line {ts : List Token} {x : Block} (h : (split ts).later = [])
    (hf : Flat (split ts).cur) (hp : parse ts = .ok x) : Pieces (split ts).all x := by
  have := Pieces.flat hf (alone_of_split (by rw [← h])) hp .nil
  rw [Stmts.all, h]
  rwa [List.append_nil] at this

-- a line with errors in it, then another
example : ∃ ts, tokenize (chars!"VISIBLE x ) y" ++ ['\n']) = .ok (.ok ts) ∧
    (∀ t ∈ ts, t.range.stop.bytes ≤ utf8Len chars!"VISIBLE x ) y") ∧
    ts.getLast?.map (·.tokenType) ≠ some .ellipsis ∧ (∃ nodes, Pieces (split ts).all nodes) ∧
    (∀ us, tokenize chars!"VISIBLE SUM OF\n" = .ok (.ok us) → stmt us 0 ≠ []) := by
  refine ⟨_, rfl, ?_, ?_, ?_, ?_⟩
  · decide +kernel
  · decide +kernel
  · exact ⟨_, pieces_line (by decide +kernel) ⟨_, _, rfl, by decide⟩ rfl⟩
  · intro us h
    cases h
    decide +kernel

-- `HAI` takes the statement after it: the hypothesis on the last node is needed
example : ∃ n e, tokenizeAndParse chars!"HAI 1.2\n" = .ok (.ok [n]) ∧ n.TakesNext ∧
    tokenizeAndParse chars!"HAI 1.2\nGTFO" = .ok (.ok [n, .astError e]) := by
  exact ⟨_, _, rfl, trivial, rfl⟩

end Lol
