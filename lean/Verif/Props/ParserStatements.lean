import Verif.Props.ParserFlat

/-!
# Properties of single statements (C31-C33, C40, C41, C52)

`Alone one st`: the token list `one` consists of the statement `st` alone. C39 and `C39_first` carry the theorems over
to the statements of a program. The grammar of statements is `SimpleG` in `Verif/Parser/StmtSpec.lean`, the failures
are `SimpleFail` in `Verif/Parser/FailSpec.lean`.
-/

namespace Lol

/-! ## C52: everything about a statement that does not open a block -/

theorem flat_alone {one st : List Token} (ha : Alone one st) (hf : Flat st) : ∃ ts rest, st = ts ++ rest ∧
    ((∃ node, SimpleG rest ts node ∧ parse one = .ok (node :: leftoverNodes rest)) ∨
      (∃ e, SimpleFail rest ts (.error e) ∧ parse one = .ok (.astError e :: leftoverNodes rest)) ∨
      (∃ p, SimpleFail rest ts (.panic p) ∧ parse one = .panic p)) := by
  obtain ⟨t, cur, rfl, ht⟩ := hf
  obtain ⟨ts, rest, h1, h2⟩ := flat_total ht cur
  rw [parse_alone ha, h1]
  refine ⟨ts, rest, rfl, ?_⟩
  rcases h2 with ⟨node, h⟩ | ⟨f, h⟩
  · refine .inl ⟨node, h, ?_⟩
    rw [parseStmts_simple h]
    simp [parseRest, Stmts.of, Out.bind]
  · cases f with
    | error e =>
      refine .inr (.inl ⟨e, h, ?_⟩)
      rw [parseStmts_error h]
      simp [parseRest, Stmts.of, Out.bind]
    | panic p => exact .inr (.inr ⟨p, h, parseStmts_fail_panic h []⟩)

theorem SimpleG.not_error {rest ts : List Token} {node : Node} (h : SimpleG rest ts node) (e : ASTError) :
    node ≠ .astError e := by
  cases h <;> simp

theorem simple_alone {one ts rest : List Token} {node : Node} (ha : Alone one (ts ++ rest))
    (h : SimpleG rest ts node) : parse one = .ok (node :: leftoverNodes rest) := by
  rw [parse_alone ha, parseStmts_simple h]
  simp [parseRest, Stmts.of, Out.bind]

/-- **C52** A statement that does not open a block gives a node exactly if it starts with a statement of the grammar
for that node; the tokens left over, if any, are reported after it. -/
theorem C52_node {one st : List Token} (ha : Alone one st) (hf : Flat st) {node : Node} {more : Block}
    (hn : ∀ e, node ≠ .astError e) : parse one = .ok (node :: more) ↔
      ∃ ts rest, st = ts ++ rest ∧ SimpleG rest ts node ∧ more = leftoverNodes rest := by
  constructor
  · intro h
    obtain ⟨ts, rest, h1, ⟨node', h2, h3⟩ | ⟨e, h2, h3⟩ | ⟨p, h2, h3⟩⟩ := flat_alone ha hf
    · rw [h3] at h
      cases h
      exact ⟨ts, rest, h1, h2, rfl⟩
    · rw [h3] at h
      cases h
      exact absurd rfl (hn e)
    · rw [h3] at h
      cases h
  · rintro ⟨ts, rest, rfl, h, rfl⟩
    exact simple_alone ha h

-- a node and two tokens left
example : ∃ one, tokenize chars!"GIMMEH x GTFO y" = .ok (.ok one) ∧ Alone one one ∧ Flat one ∧
    (match parse one with | .ok [.gimmeh _, .astError (.tooManyTokens [_, _])] => True | _ => False) := by
  refine ⟨_, rfl, alone_of_split (by decide +kernel), ⟨_, _, rfl, by decide +kernel⟩, ?_⟩
  exact trivial

/-- **C52** The first node is an error exactly if the statement fails with it; the tokens left over are reported
after it. -/
theorem C52_error {one st : List Token} (ha : Alone one st) (hf : Flat st) {e : ASTError} {more : Block} :
    parse one = .ok (.astError e :: more) ↔
      ∃ ts rest, st = ts ++ rest ∧ SimpleFail rest ts (.error e) ∧ more = leftoverNodes rest := by
  constructor
  · intro h
    obtain ⟨ts, rest, h1, ⟨node', h2, h3⟩ | ⟨e', h2, h3⟩ | ⟨p, h2, h3⟩⟩ := flat_alone ha hf
    · rw [h3] at h
      cases h
      exact absurd rfl (h2.not_error e)
    · rw [h3] at h
      cases h
      exact ⟨ts, rest, h1, h2, rfl⟩
    · rw [h3] at h
      cases h
  · rintro ⟨ts, rest, rfl, h, rfl⟩
    rw [parse_alone ha, parseStmts_error h]
    simp [parseRest, Stmts.of, Out.bind]

-- an error and a token left
example : ∃ one, tokenize chars!"GIMMEH 1 x" = .ok (.ok one) ∧ Alone one one ∧ Flat one ∧
    (match parse one with | .ok [.astError (.unexpectedToken _), .astError (.tooManyTokens [_])] => True | _ => False) := by
  refine ⟨_, rfl, alone_of_split (by decide +kernel), ⟨_, _, rfl, by decide +kernel⟩, ?_⟩
  exact trivial

/-- **C52** `parse` panics exactly if the statement fails with that panic. -/
theorem C52_panic {one st : List Token} (ha : Alone one st) (hf : Flat st) {p : PanicSite} :
    parse one = .panic p ↔ ∃ ts rest, st = ts ++ rest ∧ SimpleFail rest ts (.panic p) := by
  constructor
  · intro h
    obtain ⟨ts, rest, h1, ⟨node', h2, h3⟩ | ⟨e', h2, h3⟩ | ⟨p, h2, h3⟩⟩ := flat_alone ha hf
    · rw [h3] at h
      cases h
    · rw [h3] at h
      cases h
    · rw [h3] at h
      cases h
      exact ⟨ts, rest, h1, h2⟩
  · rintro ⟨ts, rest, rfl, h⟩
    rw [parse_alone ha, parseStmts_fail_panic h]

-- the panic at `MAEK`
example : ∃ one, tokenize chars!"VISIBLE MAEK x" = .ok (.ok one) ∧ Alone one one ∧ Flat one ∧
    (match parse one with | .panic .todoMaek => True | _ => False) := by
  refine ⟨_, rfl, alone_of_split (by decide +kernel), ⟨_, _, rfl, by decide +kernel⟩, ?_⟩
  exact trivial

/-- What a statement that does not open a block can be. -/
inductive Reading
  | node (n : Node)
  | fail (f : Fail)

/-- The statement `ts`, followed by `rest`, is the node or fails. -/
def Reading.Of (rest ts : List Token) : Reading → Prop
  | .node n => SimpleG rest ts n
  | .fail f => SimpleFail rest ts f

/-- **C52** A statement can be read in exactly one way: the grammar and the failures cover all statements and are
unambiguous. -/
theorem C52_exactly_one (st : List Token) (hf : Flat st) :
    (∃ ts rest r, st = ts ++ rest ∧ Reading.Of rest ts r) ∧
    ∀ ts rest r ts' rest' r', st = ts ++ rest → Reading.Of rest ts r → st = ts' ++ rest' → Reading.Of rest' ts' r' →
      (ts = ts' ∧ rest = rest' ∧ r = r') ∨ ∃ p, r = .fail (.panic p) ∧ r' = .fail (.panic p) := by
  obtain ⟨t, cur, rfl, ht⟩ := hf
  constructor
  · obtain ⟨ts, rest, h1, ⟨node, h⟩ | ⟨f, h⟩⟩ := flat_total ht cur
    · exact ⟨ts, rest, .node node, h1, h⟩
    · exact ⟨ts, rest, .fail f, h1, h⟩
  · intro ts rest r ts' rest' r' h1 h2 h3 h4
    -- each reading determines what `parse_statement` does
    have key : ∀ {ts rest : List Token} {r : Reading}, t :: cur = ts ++ rest → Reading.Of rest ts r →
        ∃ n0, ∀ n, n0 ≤ n → exec (parseStatement (parseBlock n) n t) ⟨cur, []⟩ = match r with
          | .node node => .ok node ⟨rest, []⟩
          | .fail f => f.res ⟨rest, []⟩ := by
      intro ts rest r h1 h2
      cases r with
      | node node =>
        obtain ⟨u, tail, rfl, h5⟩ := SimpleG.complete (show SimpleG rest ts node from h2) []
        rw [List.cons_append, List.cons.injEq] at h1
        obtain ⟨rfl, rfl⟩ := h1
        exact ⟨_, fun n hn => h5 _ n hn⟩
      | fail f =>
        obtain ⟨u, tail, rfl, h5⟩ := SimpleFail.complete (show SimpleFail rest ts f from h2) []
        rw [List.cons_append, List.cons.injEq] at h1
        obtain ⟨rfl, rfl⟩ := h1
        exact ⟨_, fun n hn => h5 _ n hn⟩
    obtain ⟨n1, h5⟩ := key h1 h2
    obtain ⟨n2, h6⟩ := key h3 h4
    have h7 := h5 (n1 + n2) (by omega)
    rw [h6 (n1 + n2) (by omega)] at h7
    have hts : rest = rest' → ts = ts' := by
      intro h
      rw [h1, h] at h3
      exact List.append_cancel_right h3
    cases r with
    | node node =>
      cases r' with
      | node node' =>
        cases h7
        exact .inl ⟨hts rfl, rfl, rfl⟩
      | fail f' => cases f' <;> cases h7
    | fail f =>
      cases r' with
      | node node' => cases f <;> cases h7
      | fail f' =>
        cases f with
        | error e =>
          cases f' with
          | error e' =>
            cases h7
            exact .inl ⟨hts rfl, rfl, rfl⟩
          | panic p => cases h7
        | panic p =>
          cases f' with
          | error e' => cases h7
          | panic p' =>
            cases h7
            exact .inr ⟨p, rfl, rfl⟩

-- Of `SUM OF x AN y z`, the last token is left; `x R` fails; `x VISIBLE` panics.
example : ∃ a b c, tokenize chars!"SUM OF x AN y z" = .ok (.ok a) ∧ tokenize chars!"x R\n" = .ok (.ok b) ∧
    tokenize chars!"x VISIBLE\n" = .ok (.ok c) ∧ Alone a a ∧ Flat a ∧ Alone b b ∧ Flat b ∧ Alone c c ∧ Flat c ∧
    (match parse a with | .ok [.expression _, .astError (.tooManyTokens [_])] => True | _ => False) ∧
    (match parse b with | .ok [.astError (.variableAssignment (.expectedValue _))] => True | _ => False) ∧
    (match parse c with | .panic .unreachableStatement => True | _ => False) := by
  refine ⟨_, _, _, rfl, rfl, rfl, alone_of_split (by decide +kernel), ⟨_, _, rfl, by decide +kernel⟩,
    alone_of_split (by decide +kernel), ⟨_, _, rfl, by decide +kernel⟩, alone_of_split (by decide +kernel),
    ⟨_, _, rfl, by decide +kernel⟩, ?_, ?_, ?_⟩ <;> exact trivial

/-! ## C31: `I HAS A` -/

theorem flat_of {st r : List Token} {t : Token} {k : Keyword} (h : st = t :: r) (hk : t.Is k)
    (hb : k ∉ blockKeywords) : Flat st := by
  refine ⟨t, r, h, fun k' hk' h' => ?_⟩
  have e1 : t.tokenType = _ := hk
  have e2 : t.tokenType = _ := h'
  rw [e1] at e2
  cases e2
  exact hb hk'

theorem leftoverNodes_nil {rest : List Token} (h : [] = leftoverNodes rest) : rest = [] := by
  unfold leftoverNodes at h
  split at h
  · assumption
  · cases h

/-- The one node that a statement gives. -/
theorem one_node {one st : List Token} (ha : Alone one st) (hf : Flat st) {node : Node}
    (hn : ∀ e, node ≠ .astError e) : parse one = .ok [node] ↔ SimpleG [] st node := by
  rw [C52_node ha hf hn]
  constructor
  · rintro ⟨ts, rest, rfl, h, h'⟩
    cases leftoverNodes_nil h'
    rw [List.append_nil]
    exact h
  · intro h
    exact ⟨st, [], by simp, h, rfl⟩

/-- **C31** A statement that starts with `I HAS A` gives a declaration, and nothing else, exactly if it consists of
`I HAS A`, the identifier and, if there is an initial value, `ITZ` and the type keyword or the expression. -/
theorem C31_declaration {one st r : List Token} {t : Token} (ha : Alone one st) (hst : st = t :: r)
    (ht : t.Is .I_HAS_A) (n : IHasA) : parse one = .ok [.iHasA n] ↔
      n.iHasAToken = t ∧ n.identifier.WF ∧ match n.initialValue with
        | none => st = t :: n.identifier.toks
        | some (.type ty) => ty.token.Is ty.keyword ∧
            ∃ itz, itz.Is .ITZ ∧ st = t :: (n.identifier.toks ++ [itz, ty.token])
        | some (.expression e) => e.WF ∧ ¬ e.IsNoob ∧
            ∃ itz, itz.Is .ITZ ∧ st = t :: (n.identifier.toks ++ itz :: e.toks) := by
  rw [one_node ha (flat_of hst ht (by decide)) (by simp)]
  constructor
  · intro h
    cases h with
    | declaration h1 h2 h3 => cases hst; exact ⟨rfl, h2, rfl⟩
    | declarationType h1 h2 h3 h4 => cases hst; exact ⟨rfl, h2, h4, _, h3, rfl⟩
    | declarationExpr h1 h2 h3 h4 h5 h6 => cases hst; exact ⟨rfl, h2, h4, h6, _, h3, rfl⟩
  · obtain ⟨t', i, o⟩ := n
    rintro ⟨rfl, h2, h3⟩
    match o, h3 with
    | none, h3 => rw [h3]; exact .declaration ht h2 rfl
    | some (.type ty), ⟨h4, itz, h5, h6⟩ => rw [h6]; exact .declarationType ht h2 h5 h4
    | some (.expression e), ⟨h4, h5, itz, h6, h7⟩ =>
      rw [h7]; exact .declarationExpr ht h2 h6 h4 ⟨by simp, fun _ => NoSlot.nil⟩ h5

-- a declaration with a value
example : ∃ one t r, tokenize chars!"I HAS A x ITZ NOT y" = .ok (.ok one) ∧ Alone one one ∧ one = t :: r ∧ t.Is .I_HAS_A ∧
    (match parse one with | .ok [.iHasA ⟨_, _, some (.expression _)⟩] => True | _ => False) := by
  refine ⟨_, _, _, rfl, alone_of_split (by decide +kernel), rfl, rfl, ?_⟩
  exact trivial

/-- **C31** The errors of a statement that starts with `I HAS A`, with the token that each names. -/
theorem C31_error {one st r : List Token} {t : Token} (ha : Alone one st) (hst : st = t :: r)
    (ht : t.Is .I_HAS_A) (e : ASTError) (more : Block) : parse one = .ok (.astError e :: more) ↔
      ∃ rest, more = leftoverNodes rest ∧
        ((e = .iHasA (.missingIdentifier t) ∧ st = [t] ∧ rest = []) ∨
         (∃ u, e = .iHasA (.invalidIdentifier u) ∧ ¬ u.IsIdent ∧ ¬ u.Is .SRS ∧ st = t :: u :: rest) ∨
         (∃ s, e = .missingToken s ∧ s.Is .SRS ∧ st = [t, s] ∧ rest = []) ∨
         (∃ s u, e = .unexpectedToken u ∧ s.Is .SRS ∧ ¬ u.IsIdent ∧ st = t :: s :: u :: rest) ∨
         (∃ (i : Identifier) (u : Token), e = .unexpectedToken u ∧ i.WF ∧ ¬ u.Is .ITZ ∧ st = t :: (i.toks ++ u :: rest)) ∨
         (∃ (i : Identifier) (itz : Token), e = .iHasA (.expectedInitialValue itz) ∧ i.WF ∧ itz.Is .ITZ ∧
            st = t :: (i.toks ++ [itz]) ∧ rest = []) ∨
         (∃ (i : Identifier) (itz : Token) (ts : List Token), ExprFail rest ts (.error e) ∧ i.WF ∧
            itz.Is .ITZ ∧ (∀ k ∈ typeKeywords, NotFirst k ts) ∧ st = t :: (i.toks ++ itz :: (ts ++ rest)))) := by
  rw [C52_error ha (flat_of hst ht (by decide))]
  constructor
  · rintro ⟨ts, rest, h1, h2, rfl⟩
    refine ⟨rest, rfl, ?_⟩
    rw [h1]
    have hne : ∀ {v : VariableAccess} {z : List Token}, v.WF → st = v.toks ++ z → False := by
      intro v z hv h
      obtain ⟨u, us, h3, h4, -⟩ := VariableAccess.parse_complete v hv [] NoSlot.nil []
      rw [hst, h3, List.cons_append, List.cons.injEq] at h
      rw [← h.1, notValid ht (by decide)] at h4
      cases h4
    have hk : ∀ {k : Keyword} {u : Token} {us : List Token}, u.Is k → st = (u :: us) ++ rest → k = .I_HAS_A := by
      intro k u us hu h
      rw [hst, List.cons_append, List.cons.injEq] at h
      have e1 : t.tokenType = _ := ht
      have e2 : u.tokenType = _ := hu
      rw [h.1, e2] at e1
      cases e1
      rfl
    have hfirst : ∀ {u : Token} {us : List Token}, st = (u :: us) ++ rest → u = t := by
      intro u us h
      rw [hst, List.cons_append, List.cons.injEq] at h
      exact h.1.symm
    cases h2 with
    | declarationEnd h3 h4 =>
      cases hfirst h1
      exact .inl ⟨rfl, by simp [h4], h4⟩
    | declarationName h3 h4 h5 =>
      cases hfirst h1
      exact .inr (.inl ⟨_, rfl, h4, h5, rfl⟩)
    | declarationSrs h3 h4 h5 =>
      cases hfirst h1
      cases h5 with
      | notIdent h6 h7 =>
        obtain ⟨u, us, h8, h9⟩ := h4
        cases h8
        exact absurd h9 (not_or.2 ⟨h6, h7⟩)
      | srsEnd h6 h7 => exact .inr (.inr (.inl ⟨_, rfl, h6, by simp [h7], h7⟩))
      | srsNotIdent h6 h7 => exact .inr (.inr (.inr (.inl ⟨_, _, rfl, h6, h7, rfl⟩)))
    | declarationItz h3 h4 h5 =>
      cases hfirst h1
      exact .inr (.inr (.inr (.inr (.inl ⟨_, _, rfl, h4, h5, by simp⟩))))
    | declarationNoValue h3 h4 h5 h6 =>
      cases hfirst h1
      exact .inr (.inr (.inr (.inr (.inr (.inl ⟨_, _, rfl, h4, h5, by simp [h6], h6⟩)))))
    | declarationValue h3 h4 h5 h6 h7 =>
      cases hfirst h1
      exact .inr (.inr (.inr (.inr (.inr (.inr ⟨_, _, _, h7, h4, h5, h6, by simp⟩)))))
    | access h3 h4 =>
      obtain ⟨u, us, rfl, h5⟩ := h3
      cases hfirst h1
      rw [← isValid_iff, notValid ht (by decide)] at h5
      cases h5
    | assignmentEnd h3 => exact (hne h3 (by rw [h1, List.append_assoc])).elim
    | assignmentValue h3 => exact (hne h3 (by rw [h1, List.append_assoc])).elim
    | setSlotEnd h3 => exact (hne h3 (by rw [h1, List.append_assoc])).elim
    | setSlotName h3 => exact (hne h3 (by rw [h1, List.append_assoc])).elim
    | setSlotNoItz h3 => exact (hne h3 (by rw [h1, List.append_assoc])).elim
    | setSlotItz h3 => exact (hne h3 (by rw [h1, List.append_assoc])).elim
    | setSlotNoValue h3 => exact (hne h3 (by rw [h1, List.append_assoc])).elim
    | setSlotValue h3 => exact (hne h3 (by rw [h1, List.append_assoc])).elim
    | visible h3 => cases hk h3 h1
    | gimmehEnd h3 => cases hk h3 h1
    | gimmeh h3 => cases hk h3 h1
    | foundYrEnd h3 => cases hk h3 h1
    | foundYr h3 => cases hk h3 h1
    | callEnd h3 => cases hk h3 h1
    | callName h3 => cases hk h3 h1
    | callArguments h3 => cases hk h3 h1
    | callNoMkay h3 => cases hk h3 h1
    | callMkay h3 => cases hk h3 h1
    | expression h3 =>
      cases hfirst h1
      exact absurd ht (h3 _ (by decide))
  · rintro ⟨rest, rfl, h⟩
    rcases h with ⟨rfl, h1, h2⟩ | ⟨u, rfl, h1, h2, h3⟩ | ⟨s, rfl, h1, h2, h3⟩ | ⟨s, u, rfl, h1, h2, h3⟩ |
      ⟨i, u, rfl, h1, h2, h3⟩ | ⟨i, itz, rfl, h1, h2, h3, h4⟩ | ⟨i, itz, ts, h1, h2, h3, h4, h5⟩
    · exact ⟨[t], rest, by simp [h1, h2], .declarationEnd ht h2, rfl⟩
    · exact ⟨[t, u], rest, by simp [h3], .declarationName ht h1 h2, rfl⟩
    · exact ⟨[t, s], rest, by simp [h2, h3], .declarationSrs ht ⟨_, _, rfl, .inr h1⟩ (.srsEnd h1 h3), rfl⟩
    · exact ⟨[t, s, u], rest, by simp [h3], .declarationSrs ht ⟨_, _, rfl, .inr h1⟩ (.srsNotIdent h1 h2), rfl⟩
    · exact ⟨_, rest, by simp [h3], .declarationItz ht h1 h2, rfl⟩
    · exact ⟨_, rest, by simp [h3, h4], .declarationNoValue ht h1 h2 h4, rfl⟩
    · exact ⟨_, rest, by simp [h5], .declarationValue ht h2 h3 h4 h1, rfl⟩

-- `I HAS A SRS x ITZ SUM OF y AN z`, and a declaration without its value.
example : ∃ a b, tokenize chars!"I HAS A SRS x ITZ SUM OF y AN z" = .ok (.ok a) ∧
    tokenize chars!"I HAS A x ITZ\n" = .ok (.ok b) ∧ Alone a a ∧ Alone b b ∧
    (match parse a with | .ok [.iHasA ⟨_, ⟨_, some _⟩, some (.expression _)⟩] => True | _ => False) ∧
    (match parse b with | .ok [.astError (.iHasA (.expectedInitialValue _))] => True | _ => False) := by
  refine ⟨_, _, rfl, rfl, alone_of_split (by decide +kernel), alone_of_split (by decide +kernel), ?_, ?_⟩ <;>
    exact trivial

/-! ## C32: statements that start with a variable access -/

theorem flat_access {st r : List Token} {t : Token} (h : st = t :: r) (ht : t.IsIdent ∨ t.Is .SRS) : Flat st := by
  refine ⟨t, r, h, fun k hk hk' => ?_⟩
  have e1 : t.tokenType = _ := hk'
  rcases ht with ⟨x, e2⟩ | e2
  · rw [e1] at e2
    cases e2
  · have e2 : t.tokenType = _ := e2
    rw [e1] at e2
    cases e2
    exact absurd hk (by decide)

theorem exec_map_ok {α : Type} {p : Prog α} {f : α → Node} {s s' : Stmts} {x : Node}
    (h : exec (do let a ← p; pure (f a)) s = .ok x s') : ∃ a, x = f a := by
  rw [exec_bind] at h
  cases hp : exec p s with
  | ok a s1 =>
    rw [hp] at h
    cases h
    exact ⟨a, rfl⟩
  | _ => rw [hp] at h; cases h

theorem Expr.follow_nil (e : Expr) : e.Follow [] := ⟨by simp, fun _ => NoSlot.nil⟩

/-- What a statement gives that starts with a variable access. -/
theorem SimpleG.access_kinds {rest r : List Token} {t : Token} {node : Node} (h : SimpleG rest (t :: r) node)
    (ht : t.IsIdent ∨ t.Is .SRS) : (∃ n, node = .variableAssignment n) ∨ (∃ n, node = .bukkitSetSlot n) ∨
      ∃ v, node = .expression (.value (.variableAccess v)) := by
  obtain ⟨t', tail, h1, h2⟩ := h.complete []
  cases h1
  have h2 := h2 (parseBlock 0) _ (Nat.le_refl _)
  rw [parseStatement, if_pos (isValid_iff.2 ht), parseAccessStatement, exec_bind] at h2
  generalize exec (VariableAccess.parse _ t) _ = r1 at h2
  cases r1 with
  | ok v s =>
    obtain ⟨c, l⟩ := s
    rw [Res.andThen_ok, exec_bind] at h2
    cases c with
    | nil =>
      cases h2
      exact .inr (.inr ⟨_, rfl⟩)
    | cons u c =>
      rw [exec_peek_cons, Res.andThen_ok] at h2
      dsimp only at h2
      split at h2
      · obtain ⟨a, h3⟩ := exec_map_ok h2
        exact .inl ⟨_, h3⟩
      · obtain ⟨a, h3⟩ := exec_map_ok h2
        exact .inr (.inl ⟨_, h3⟩)
      · cases h2
  | _ => cases h2

/-- **C32** A statement that starts with a variable access gives an assignment, and nothing else, exactly if it
consists of the access, `R` and the expression. -/
theorem C32_assignment {one st r : List Token} {t : Token} (ha : Alone one st) (hst : st = t :: r)
    (ht : t.IsIdent ∨ t.Is .SRS) (n : VariableAssignment) : parse one = .ok [.variableAssignment n] ↔
      n.variableAccess.WF ∧ n.rToken.Is .R ∧ n.expression.WF ∧
        st = n.variableAccess.toks ++ n.rToken :: n.expression.toks := by
  rw [one_node ha (flat_access hst ht) (by simp)]
  constructor
  · intro h
    cases h with
    | assignment h1 h2 h3 h4 => exact ⟨h1, h2, h3, rfl⟩
  · obtain ⟨v, e, r⟩ := n
    rintro ⟨h1, h2, h3, h4⟩
    rw [h4]
    exact .assignment h1 h2 h3 e.follow_nil

-- an assignment to a slot
example : ∃ one t r, tokenize chars!"a'Z b R NOT c" = .ok (.ok one) ∧ Alone one one ∧ one = t :: r ∧ (t.IsIdent ∨ t.Is .SRS) ∧
    (match parse one with | .ok [.variableAssignment _] => True | _ => False) := by
  refine ⟨_, _, _, rfl, alone_of_split (by decide +kernel), rfl, .inl ⟨_, rfl⟩, ?_⟩
  exact trivial

/-- **C32** It gives a slot setting, and nothing else, exactly if it consists of the access, `HAS A`, the slot name,
`ITZ` and the expression. -/
theorem C32_set_slot {one st r : List Token} {t : Token} (ha : Alone one st) (hst : st = t :: r)
    (ht : t.IsIdent ∨ t.Is .SRS) (n : BukkitSetSlot) : parse one = .ok [.bukkitSetSlot n] ↔
      n.bukkit.WF ∧ n.slotName.WF ∧ n.value.WF ∧ ∃ h itz, h.Is .HAS_A ∧ itz.Is .ITZ ∧
        st = n.bukkit.toks ++ h :: (n.slotName.toks ++ itz :: n.value.toks) := by
  rw [one_node ha (flat_access hst ht) (by simp)]
  constructor
  · intro h
    cases h with
    | setSlot h1 h2 h3 h4 h5 h6 => exact ⟨h1, h3, h5, _, _, h2, h4, rfl⟩
  · obtain ⟨v, i, e⟩ := n
    rintro ⟨h1, h2, h3, h, itz, h4, h5, h6⟩
    rw [h6]
    exact .setSlot h1 h4 h2 h5 h3 e.follow_nil

-- a slot of a variable whose name is computed
example : ∃ one t r, tokenize chars!"SRS a HAS A b ITZ 1 " = .ok (.ok one) ∧ Alone one one ∧ one = t :: r ∧ (t.IsIdent ∨ t.Is .SRS) ∧
    (match parse one with | .ok [.bukkitSetSlot _] => True | _ => False) := by
  refine ⟨_, _, _, rfl, alone_of_split (by decide +kernel), rfl, .inr rfl, ?_⟩
  exact trivial

/-- **C32** It gives an expression exactly if it is the access alone; then it gives nothing else. -/
theorem C32_expression {one st r : List Token} {t : Token} (ha : Alone one st) (hst : st = t :: r)
    (ht : t.IsIdent ∨ t.Is .SRS) (e : Expr) (more : Block) : parse one = .ok (.expression e :: more) ↔
      more = [] ∧ ∃ v, e = .value (.variableAccess v) ∧ v.WF ∧ st = v.toks := by
  rw [C52_node ha (flat_access hst ht) (by simp)]
  constructor
  · rintro ⟨ts, rest, h1, h2, rfl⟩
    cases h2 with
    | access h3 h4 => subst h4; exact ⟨rfl, _, rfl, h3, by simpa using h1⟩
    | expression h3 h4 h5 =>
      obtain ⟨u, us, h6⟩ := e.toks_ne
      rw [hst, h6, List.cons_append, List.cons.injEq] at h1
      have hs : SimpleG rest (u :: us) (.expression e) := by rw [← h6]; exact .expression h3 h4 h5
      rcases hs.access_kinds (h1.1 ▸ ht) with ⟨n, h⟩ | ⟨n, h⟩ | ⟨v, h⟩
      · cases h
      · cases h
      · cases h; exact absurd rfl (h5 v)
  · rintro ⟨rfl, v, rfl, h1, h2⟩
    exact ⟨st, [], by simp, h2 ▸ .access h1 rfl, rfl⟩

-- only an access
example : ∃ one t r, tokenize chars!"a'Z SRS b" = .ok (.ok one) ∧ Alone one one ∧ one = t :: r ∧ (t.IsIdent ∨ t.Is .SRS) ∧
    (match parse one with | .ok [.expression _] => True | _ => False) := by
  refine ⟨_, _, _, rfl, alone_of_split (by decide +kernel), rfl, .inl ⟨_, rfl⟩, ?_⟩
  exact trivial

/-- **C32** Other nodes are errors. -/
theorem C32_kinds {one st r : List Token} {t : Token} (ha : Alone one st) (hst : st = t :: r)
    (ht : t.IsIdent ∨ t.Is .SRS) (node : Node) (more : Block) (h : parse one = .ok (node :: more)) :
    (∃ n, node = .variableAssignment n) ∨ (∃ n, node = .bukkitSetSlot n) ∨
      (∃ v, node = .expression (.value (.variableAccess v))) ∨ ∃ e, node = .astError e := by
  by_cases hn : ∃ e, node = .astError e
  · exact .inr (.inr (.inr hn))
  · rw [C52_node ha (flat_access hst ht) fun e h => hn ⟨e, h⟩] at h
    obtain ⟨ts, rest, h1, h2, -⟩ := h
    obtain ⟨u, us, rfl, -⟩ := h2.complete []
    rw [hst, List.cons_append, List.cons.injEq] at h1
    rcases h2.access_kinds (h1.1 ▸ ht) with h | h | h
    · exact .inl h
    · exact .inr (.inl h)
    · exact .inr (.inr (.inl h))

-- an assignment without value
example : ∃ one t r, tokenize chars!"a R\n" = .ok (.ok one) ∧ Alone one one ∧ one = t :: r ∧ (t.IsIdent ∨ t.Is .SRS) ∧
    (match parse one with | .ok [.astError _] => True | _ => False) := by
  refine ⟨_, _, _, rfl, alone_of_split (by decide +kernel), rfl, .inl ⟨_, rfl⟩, ?_⟩
  exact trivial

/-- **C32** Anything but `R` or `HAS A` after the access is a panic, and nothing else makes `parse` panic there. -/
theorem C32_panic {one st : List Token} (ha : Alone one st) :
    parse one = .panic .unreachableStatement ↔ AccessThen st := by
  constructor
  · intro h
    rcases C21_only_two_panics one _ h with ⟨h, -⟩ | ⟨-, k, h⟩
    · cases h
    · cases k with
      | zero => rw [ha.1] at h; exact h
      | succ k => rw [ha.2] at h; exact absurd rfl h.ne_nil
  · intro h
    exact C21_access_panics one (by rw [ha.1]; exact h)

-- `a'Z b R SUM OF x AN y`, `a HAS A b ITZ c`, `a'Z SRS b` and `a HAS A b c`
example : ∃ a b c d, tokenize chars!"a'Z b R SUM OF x AN y" = .ok (.ok a) ∧
    tokenize chars!"a HAS A b ITZ c" = .ok (.ok b) ∧ tokenize chars!"a'Z SRS b" = .ok (.ok c) ∧
    tokenize chars!"a HAS A b c" = .ok (.ok d) ∧
    Alone a a ∧ Alone b b ∧ Alone c c ∧ Alone d d ∧
    (match parse a with | .ok [.variableAssignment _] => True | _ => False) ∧
    (match parse b with | .ok [.bukkitSetSlot _] => True | _ => False) ∧
    (match parse c with | .ok [.expression _] => True | _ => False) ∧
    (match parse d with | .ok [.astError (.unexpectedToken _)] => True | _ => False) := by
  refine ⟨_, _, _, _, rfl, rfl, rfl, rfl, alone_of_split (by decide +kernel), alone_of_split (by decide +kernel),
    alone_of_split (by decide +kernel), alone_of_split (by decide +kernel), ?_, ?_, ?_, ?_⟩ <;> exact trivial

/-! ## C33: `VISIBLE`, `GIMMEH`, `FOUND YR`, `I IZ` -/

/-- A statement that does not open a block is parsed without error exactly if it is a statement of the grammar. -/
theorem error_free_one {one st : List Token} (ha : Alone one st) (hf : Flat st) {nodes : Block} :
    parse one = .ok nodes ∧ errorFreeBlock nodes ↔ ∃ node, nodes = [node] ∧ SimpleG [] st node := by
  constructor
  · rintro ⟨h, he⟩
    obtain ⟨ts, rest, rfl, ⟨node, h2, h3⟩ | ⟨e, h2, h3⟩ | ⟨p, h2, h3⟩⟩ := flat_alone ha hf
    · rw [h3] at h
      cases h
      have hr : rest = [] := by
        unfold leftoverNodes at he
        split at he
        · assumption
        · exact absurd he.2.1 (by simp [Node.ErrorFree])
      subst hr
      exact ⟨node, rfl, by simpa using h2⟩
    · rw [h3] at h
      cases h
      exact absurd he.1 (by simp [Node.ErrorFree])
    · rw [h3] at h
      cases h
  · rintro ⟨node, rfl, h⟩
    refine ⟨(one_node ha hf fun e => h.not_error e).2 h, ?_, trivial⟩
    cases h <;> trivial

/-- The kind of node for the keywords that start statements. -/
theorem SimpleG.kind {rest r : List Token} {t : Token} {node : Node} (h : SimpleG rest (t :: r) node) :
    (t.Is .VISIBLE → ∃ n, node = .visible n) ∧ (t.Is .GIMMEH → ∃ n, node = .gimmeh n) ∧
      (t.Is .FOUND_YR → ∃ n, node = .foundYr n) ∧ (t.Is .I_IZ → ∃ n, node = .iIz n) ∧
      (t.Is .GTFO → node = .gtfo t) ∧ (t.Is .KTHXBYE → node = .kThxBye t) ∧
      (t.Is .I_HAS_A → ∃ n, node = .iHasA n) := by
  obtain ⟨t', tail, h1, h2⟩ := h.complete []
  cases h1
  have h2 := h2 (parseBlock 0) _ (Nat.le_refl _)
  refine ⟨fun ht => ?_, fun ht => ?_, fun ht => ?_, fun ht => ?_, fun ht => ?_, fun ht => ?_, fun ht => ?_⟩ <;>
    rw [parseStatement, notValid ht (by decide), if_neg (by simp), show t.tokenType = _ from ht] at h2 <;>
    first
    | exact exec_map_ok h2
    | exact (Res.ok.inj h2).1.symm

/-- **C33** `VISIBLE` is parsed without error exactly if expressions follow and then possibly `!`; the node holds
them. -/
theorem C33_visible {one st r : List Token} {t : Token} (ha : Alone one st) (hst : st = t :: r)
    (ht : t.Is .VISIBLE) (nodes : Block) : parse one = .ok nodes ∧ errorFreeBlock nodes ↔
      ∃ es ex, nodes = [.visible ⟨t, es, ex⟩] ∧ FollowAll es ex.toList ∧
        (∀ x ∈ ex, x.tokenType = .exclamationMark) ∧ st = t :: (es.flatMap Expr.toks ++ ex.toList) := by
  rw [error_free_one ha (flat_of hst ht (by decide))]
  constructor
  · rintro ⟨node, rfl, h⟩
    obtain ⟨n, rfl⟩ := (hst ▸ h : SimpleG [] (t :: r) node).kind.1 ht
    cases h with
    | visible h1 h2 h3 h4 => cases hst; exact ⟨_, _, rfl, by simpa using h2, h3, rfl⟩
  · rintro ⟨es, ex, rfl, h1, h2, h3⟩
    exact ⟨_, rfl, by rw [h3]; exact .visible ht (by simpa using h1) h2 fun _ => rfl⟩

-- two expressions and an exclamation mark
example : ∃ one t r, tokenize chars!"VISIBLE x NOT y!" = .ok (.ok one) ∧ Alone one one ∧ one = t :: r ∧ t.Is .VISIBLE ∧
    (match parse one with | .ok [.visible ⟨_, [_, _], some _⟩] => True | _ => False) := by
  refine ⟨_, _, _, rfl, alone_of_split (by decide +kernel), rfl, rfl, ?_⟩
  exact trivial

/-- **C33** `GIMMEH` is parsed without error exactly if a variable access follows; the node holds it. -/
theorem C33_gimmeh {one st r : List Token} {t : Token} (ha : Alone one st) (hst : st = t :: r)
    (ht : t.Is .GIMMEH) (nodes : Block) : parse one = .ok nodes ∧ errorFreeBlock nodes ↔
      ∃ v, nodes = [.gimmeh ⟨t, v⟩] ∧ v.WF ∧ st = t :: v.toks := by
  rw [error_free_one ha (flat_of hst ht (by decide))]
  constructor
  · rintro ⟨node, rfl, h⟩
    obtain ⟨n, rfl⟩ := (hst ▸ h : SimpleG [] (t :: r) node).kind.2.1 ht
    cases h with
    | gimmeh h1 h2 h3 => cases hst; exact ⟨_, rfl, h2, rfl⟩
  · rintro ⟨v, rfl, h1, h2⟩
    exact ⟨_, rfl, by rw [h2]; exact .gimmeh ht h1 NoSlot.nil⟩

-- into a slot
example : ∃ one t r, tokenize chars!"GIMMEH a'Z b" = .ok (.ok one) ∧ Alone one one ∧ one = t :: r ∧ t.Is .GIMMEH ∧
    (match parse one with | .ok [.gimmeh _] => True | _ => False) := by
  refine ⟨_, _, _, rfl, alone_of_split (by decide +kernel), rfl, rfl, ?_⟩
  exact trivial

/-- **C33** `FOUND YR` is parsed without error exactly if an expression follows; the node holds it. -/
theorem C33_found_yr {one st r : List Token} {t : Token} (ha : Alone one st) (hst : st = t :: r)
    (ht : t.Is .FOUND_YR) (nodes : Block) : parse one = .ok nodes ∧ errorFreeBlock nodes ↔
      ∃ e, nodes = [.foundYr ⟨t, e⟩] ∧ e.WF ∧ st = t :: e.toks := by
  rw [error_free_one ha (flat_of hst ht (by decide))]
  constructor
  · rintro ⟨node, rfl, h⟩
    obtain ⟨n, rfl⟩ := (hst ▸ h : SimpleG [] (t :: r) node).kind.2.2.1 ht
    cases h with
    | foundYr h1 h2 h3 => cases hst; exact ⟨_, rfl, h2, rfl⟩
  · rintro ⟨e, rfl, h1, h2⟩
    exact ⟨_, rfl, by rw [h2]; exact .foundYr ht h1 e.follow_nil⟩

-- a negation
example : ∃ one t r, tokenize chars!"FOUND YR NOT x" = .ok (.ok one) ∧ Alone one one ∧ one = t :: r ∧ t.Is .FOUND_YR ∧
    (match parse one with | .ok [.foundYr _] => True | _ => False) := by
  refine ⟨_, _, _, rfl, alone_of_split (by decide +kernel), rfl, rfl, ?_⟩
  exact trivial

/-- **C33** `I IZ` is parsed without error exactly if a variable access, arguments (`YR` and an expression, separated
by `AN`) and `MKAY` follow; the node holds them. -/
theorem C33_i_iz {one st r : List Token} {t : Token} (ha : Alone one st) (hst : st = t :: r)
    (ht : t.Is .I_IZ) (nodes : Block) : parse one = .ok nodes ∧ errorFreeBlock nodes ↔
      ∃ v ts es mkay, nodes = [.iIz ⟨t, v, es⟩] ∧ v.WF ∧ ArgsG [mkay] ts es ∧ mkay.Is .MKAY ∧
        st = t :: (v.toks ++ (ts ++ [mkay])) := by
  rw [error_free_one ha (flat_of hst ht (by decide))]
  constructor
  · rintro ⟨node, rfl, h⟩
    obtain ⟨n, rfl⟩ := (hst ▸ h : SimpleG [] (t :: r) node).kind.2.2.2.1 ht
    cases h with
    | call h1 h2 h3 h4 => cases hst; exact ⟨_, _, _, _, rfl, h2, h3, h4, rfl⟩
  · rintro ⟨v, ts, es, mkay, rfl, h1, h2, h3, h4⟩
    exact ⟨_, rfl, by rw [h4]; exact .call ht h1 h2 h3⟩

-- a call with two arguments
example : ∃ one t r, tokenize chars!"I IZ f YR x AN YR y MKAY" = .ok (.ok one) ∧ Alone one one ∧ one = t :: r ∧ t.Is .I_IZ ∧
    (match parse one with | .ok [.iIz ⟨_, _, [_, _]⟩] => True | _ => False) := by
  refine ⟨_, _, _, rfl, alone_of_split (by decide +kernel), rfl, rfl, ?_⟩
  exact trivial

/-- **C33** `GTFO` and `KTHXBYE` are parsed without error exactly if nothing follows. -/
theorem C33_single {one st r : List Token} {t : Token} (ha : Alone one st) (hst : st = t :: r) (nodes : Block) :
    (t.Is .GTFO → (parse one = .ok nodes ∧ errorFreeBlock nodes ↔ r = [] ∧ nodes = [.gtfo t])) ∧
      (t.Is .KTHXBYE → (parse one = .ok nodes ∧ errorFreeBlock nodes ↔ r = [] ∧ nodes = [.kThxBye t])) := by
  constructor
  · intro ht
    rw [error_free_one ha (flat_of hst ht (by decide))]
    constructor
    · rintro ⟨node, rfl, h⟩
      cases (hst ▸ h : SimpleG [] (t :: r) node).kind.2.2.2.2.1 ht
      cases h
      cases hst
      exact ⟨rfl, rfl⟩
    · rintro ⟨rfl, rfl⟩
      exact ⟨_, rfl, by rw [hst]; exact .gtfo ht⟩
  · intro ht
    rw [error_free_one ha (flat_of hst ht (by decide))]
    constructor
    · rintro ⟨node, rfl, h⟩
      cases (hst ▸ h : SimpleG [] (t :: r) node).kind.2.2.2.2.2.1 ht
      cases h
      cases hst
      exact ⟨rfl, rfl⟩
    · rintro ⟨rfl, rfl⟩
      exact ⟨_, rfl, by rw [hst]; exact .kThxBye ht⟩

-- `VISIBLE x SUM OF y AN z!`, `GIMMEH a'Z b`, `FOUND YR NOT x` and a call with two arguments
example : ∃ a b c d, tokenize chars!"VISIBLE x SUM OF y AN z!" = .ok (.ok a) ∧
    tokenize chars!"GIMMEH a'Z b" = .ok (.ok b) ∧ tokenize chars!"FOUND YR NOT x" = .ok (.ok c) ∧
    tokenize chars!"I IZ f YR x AN YR NOT y MKAY" = .ok (.ok d) ∧
    Alone a a ∧ Alone b b ∧ Alone c c ∧ Alone d d ∧
    (match parse a with | .ok [.visible ⟨_, [_, _], some _⟩] => True | _ => False) ∧
    (match parse b with | .ok [.gimmeh ⟨_, ⟨_, [_]⟩⟩] => True | _ => False) ∧
    (match parse c with | .ok [.foundYr ⟨_, .unary _ _⟩] => True | _ => False) ∧
    (match parse d with | .ok [.iIz ⟨_, _, [_, _]⟩] => True | _ => False) := by
  refine ⟨_, _, _, _, rfl, rfl, rfl, rfl, alone_of_split (by decide +kernel), alone_of_split (by decide +kernel),
    alone_of_split (by decide +kernel), alone_of_split (by decide +kernel), ?_, ?_, ?_, ?_⟩ <;> exact trivial

/-! ## C40: tokens left over -/

/-- **C40** When a statement of the grammar or an error is found and tokens remain in the statement, they are
reported, exactly, right after its node. -/
theorem C40_leftover {one ts rest : List Token} (ha : Alone one (ts ++ rest)) (hr : rest ≠ []) :
    (∀ node, SimpleG rest ts node → parse one = .ok [node, .astError (.tooManyTokens rest)]) ∧
      ∀ e, SimpleFail rest ts (.error e) → parse one = .ok [.astError e, .astError (.tooManyTokens rest)] := by
  have hl : leftoverNodes rest = [.astError (.tooManyTokens rest)] := if_neg hr
  constructor
  · intro node h
    rw [simple_alone ha h, hl]
  · intro e h
    rw [parse_alone ha, parseStmts_error h, hl]
    simp [parseRest, Stmts.of, Out.bind]

-- `GTFO` and two more tokens
example : ∃ one t, tokenize chars!"GTFO x y" = .ok (.ok one) ∧ Alone one (one.take 1 ++ one.drop 1) ∧
    one.drop 1 ≠ [] ∧ SimpleG (one.drop 1) (one.take 1) (.gtfo t) :=
  ⟨_, _, rfl, alone_of_split (by decide +kernel), by decide +kernel, .gtfo (by decide +kernel)⟩

/-- **C40** Conversely every statement gives one node, or two: then the second reports the tokens left over, and
without them the statement gives the first. -/
theorem C40_at_most_two {one st : List Token} (ha : Alone one st) (hf : Flat st) (nodes : Block)
    (h : parse one = .ok nodes) : ∃ node ts rest, st = ts ++ rest ∧ ts ≠ [] ∧
      (SimpleG rest ts node ∨ ∃ e, node = .astError e ∧ SimpleFail rest ts (.error e)) ∧
      ((rest = [] ∧ nodes = [node]) ∨ (rest ≠ [] ∧ nodes = [node, .astError (.tooManyTokens rest)])) := by
  have hl : ∀ (node : Node) (rest : List Token), (rest = [] ∧ node :: leftoverNodes rest = [node]) ∨
      (rest ≠ [] ∧ node :: leftoverNodes rest = [node, .astError (.tooManyTokens rest)]) := by
    intro node rest
    by_cases hr : rest = []
    · exact .inl ⟨hr, by simp [leftoverNodes, hr]⟩
    · exact .inr ⟨hr, by simp [leftoverNodes, hr]⟩
  obtain ⟨ts, rest, rfl, ⟨node, h2, h3⟩ | ⟨e, h2, h3⟩ | ⟨p, h2, h3⟩⟩ := flat_alone ha hf
  · rw [h3] at h
    cases h
    obtain ⟨u, us, rfl, -⟩ := h2.complete []
    exact ⟨node, _, rest, rfl, by simp, .inl h2, hl _ _⟩
  · rw [h3] at h
    cases h
    obtain ⟨u, us, rfl, -⟩ := h2.complete []
    exact ⟨.astError e, _, rest, rfl, by simp, .inr ⟨e, rfl, h2⟩, hl _ _⟩
  · rw [h3] at h
    cases h

-- `GTFO x y` and `GIMMEH GTFO x`
example : ∃ a b t, tokenize chars!"GTFO x y" = .ok (.ok a) ∧ tokenize chars!"GIMMEH GTFO x" = .ok (.ok b) ∧
    Alone a (a.take 1 ++ a.drop 1) ∧ SimpleG (a.drop 1) (a.take 1) (.gtfo t) ∧
    (match parse b with | .ok [.astError (.unexpectedToken _), .astError (.tooManyTokens [_])] => True | _ => False)
    := by
  refine ⟨_, _, _, rfl, rfl, alone_of_split (by decide +kernel), .gtfo (by decide +kernel), ?_⟩
  exact trivial

/-! ## C41: no statement is dropped -/

/-- **C41** (partial: false for all token lists, see below) In a program of statements that do not open a block, none
of them empty, every statement gives one or two nodes. -/
theorem C41_flat_partial (tokens : List Token) (n : Nat)
    (h1 : ∀ i, i < n → Flat (stmt tokens i))
    (h2 : ∀ i, n ≤ i → stmt tokens i = []) (nodes : Block)
    (h : parse tokens = .ok nodes) :
    ∃ parts : List Block, parts.length = n ∧ nodes = parts.flatten ∧ ∀ i, i < n →
      (∀ one, Alone one (stmt tokens i) → parse one = .ok (parts.getD i [])) ∧
      1 ≤ (parts.getD i []).length ∧ (parts.getD i []).length ≤ 2 := by
  rw [parse_eachStmt h1 h2] at h
  have key : ∀ (sts : List (List Token)) (nodes : Block), (∀ st ∈ sts, Flat st) → parseEachStmt sts = .ok nodes →
      ∃ parts : List Block, parts.length = sts.length ∧ nodes = parts.flatten ∧ ∀ i, i < sts.length →
        parseStmts ⟨sts.getD i [], []⟩ = .ok (parts.getD i []) := by
    intro sts
    induction sts with
    | nil =>
      intro nodes _ h
      cases h
      exact ⟨[], rfl, rfl, fun i hi => absurd hi (by simp)⟩
    | cons st sts ih =>
      intro nodes hf h
      simp only [parseEachStmt] at h
      cases h3 : parseStmts ⟨st, []⟩ with
      | ok x =>
        rw [h3] at h
        cases h4 : parseEachStmt sts with
        | ok y =>
          rw [h4] at h
          obtain ⟨parts, h5, rfl, h6⟩ := ih y (fun st h => hf st (List.mem_cons_of_mem _ h)) h4
          have h : Out.ok (x ++ parts.flatten) = .ok nodes := h
          cases h
          refine ⟨x :: parts, by simp [h5], by simp, fun i hi => ?_⟩
          cases i with
          | zero => exact h3
          | succ i => exact h6 i (by simpa using hi)
        | _ => rw [h4] at h; cases h
      | _ => rw [h3] at h; cases h
  obtain ⟨parts, h3, h4, h5⟩ := key _ nodes (by
    intro st hst
    obtain ⟨i, hi, rfl⟩ := List.mem_map.1 hst
    exact h1 i (List.mem_range.1 hi)) h
  simp only [List.length_map, List.length_range] at h3 h5
  refine ⟨parts, h3, h4, fun i hi => ?_⟩
  have h6 := h5 i hi
  have e : ((List.range n).map (stmt tokens)).getD i [] =
      stmt tokens i := by
    simp [List.getD_eq_getElem?_getD, hi]
  rw [e] at h6
  have h7 : ∀ one, Alone one (stmt tokens i) → parse one = .ok (parts.getD i []) :=
    fun one ho => by rw [parse_alone ho, h6]
  obtain ⟨one, ho⟩ := C39_alone tokens i
  obtain ⟨node, ts, rest, -, -, -, h8 | h8⟩ := C40_at_most_two ho (h1 i hi) _ (h7 one ho)
  · exact ⟨h7, by rw [h8.2]; simp⟩
  · exact ⟨h7, by rw [h8.2]; simp⟩

-- Two statements, two nodes.
example : ∃ tokens nodes, tokenize chars!"GTFO\nVISIBLE y" = .ok (.ok tokens) ∧
    (∀ i, i < 2 → Flat (stmt tokens i)) ∧ (∀ i, 2 ≤ i → stmt tokens i = []) ∧ parse tokens = .ok nodes := by
  refine ⟨_, _, rfl, ?_, fun i hi => ?_, rfl⟩
  · intro i hi
    match i, hi with
    | 0, _ | 1, _ => exact ⟨_, _, rfl, by decide +kernel⟩
  · match i, hi with
    | _ + 2, _ => rfl

/-- **C41** is false for all token lists: `parse` stops without any error at an empty statement, which `...` before
a comma is; and an error at the end of a loop drops the nodes of its body. -/
theorem C41_dropped :
    (∃ tokens, tokenize chars!"GTFO\n..., VISIBLE x" = .ok (.ok tokens) ∧
      stmt tokens 2 ≠ [] ∧
      match parse tokens with | .ok [.gtfo _] => True | _ => False) ∧
    (∃ tokens, tokenize chars!"IM IN YR loop\nVISIBLE x\nIM OUTTA YR\n" = .ok (.ok tokens) ∧
      match parse tokens with | .ok [.astError (.imInYr (.missingEndLabel _))] => True | _ => False) := by
  refine ⟨⟨_, rfl, by decide +kernel, ?_⟩, ⟨_, rfl, ?_⟩⟩ <;> exact trivial

-- Two statements, three nodes.
example : ∃ tokens, tokenize chars!"GTFO x\nVISIBLE y" = .ok (.ok tokens) ∧
    (∀ i, i < 2 → Flat (stmt tokens i)) ∧
    (match parse tokens with | .ok [.gtfo _, .astError (.tooManyTokens _), .visible _] => True | _ => False) := by
  refine ⟨_, rfl, ?_, ?_⟩
  · intro i hi
    match i, hi with
    | 0, _ | 1, _ => exact ⟨_, _, rfl, by decide +kernel⟩
  · exact trivial

end Lol
