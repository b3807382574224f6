import Verif.Parser.StackSim
import Verif.Parser.ParseLemmas
import Verif.Props.ParserCost

/-! # The stack that `parse` needs (C70) -/

namespace Lol

open Prog

theorem parseOnStackWith_eq (n d : Nat) (tokens : List Token) :
    parseOnStackWith n d tokens = (exec (parseBlockIn n d stopRoot) (split tokens)).block := by
  have := run_abs (parseBlockIn n d stopRoot) _ (new_sound tokens)
  rw [new_abs] at this
  rw [exec, this]
  unfold parseOnStackWith
  cases (parseBlockIn n d stopRoot).run StatementIterator.ops (StatementIterator.new tokens) <;> rfl

theorem block_outOfFuel {r : Res Stmts Block} : r.block = .outOfFuel ↔ r = .outOfFuel := by
  cases r <;> simp [Res.block]

/-- **C70** On a stack of limited size `parse` either overflows it or gives what it gives on an unlimited one. -/
theorem C70_same {d : Nat} {tokens : List Token} (h : parseOnStack d tokens ≠ .outOfFuel) :
    parseOnStack d tokens = parse tokens := by
  unfold parseOnStack at *
  rw [parseOnStackWith_eq] at *
  have h' : exec (parseBlockIn (parseFuel tokens) d stopRoot) (split tokens) ≠ .outOfFuel := fun e =>
    h (by rw [e]; rfl)
  have := (parseBlockIn_upTo (Nat.le_refl _) stopRoot).exec (split tokens) (Nat.le_refl _) h' h'
  rw [parse_eq]
  refine (parseStmts_of (n := parseFuel tokens * (d + 2) + d) ?_ h).symm
  rw [this]

example : ∃ tokens nodes, tokenize chars!"VISIBLE NOT x" = .ok (.ok tokens) ∧ parseOnStack 3 tokens = .ok nodes :=
  ⟨_, _, rfl, rfl⟩

/-- **C70** A larger stack changes nothing but the overflow. -/
theorem C70_more {d D : Nat} (hd : d ≤ D) {tokens : List Token} (h : parseOnStack d tokens ≠ .outOfFuel) :
    parseOnStack D tokens = parseOnStack d tokens := by
  unfold parseOnStack at *
  rw [parseOnStackWith_eq] at *
  have h' : exec (parseBlockIn (parseFuel tokens) d stopRoot) (split tokens) ≠ .outOfFuel := fun e =>
    h (by rw [e]; rfl)
  rw [parseOnStackWith_eq, (parseBlockIn_more (Nat.le_refl _) hd stopRoot).exec (split tokens) (Nat.le_refl _) h' h']

example : ∃ tokens nodes, tokenize chars!"NOT NOT x" = .ok (.ok tokens) ∧ parseOnStack 4 tokens = .ok nodes ∧
    parseOnStack 3 tokens = .outOfFuel :=
  ⟨_, _, rfl, rfl, rfl⟩

theorem deepTokens_content (tokens : List Token) : deepTokens (content tokens) ≤ deepTokens tokens :=
  List.Sublist.countP_le List.filter_sublist

/-- **C70** Room for two calls more than there are operators and openings of blocks is enough. -/
theorem C70_enough {d : Nat} {tokens : List Token} (h : deepTokens tokens + 2 ≤ d) :
    parseOnStack d tokens ≠ .outOfFuel := by
  unfold parseOnStack
  rw [parseOnStackWith_eq]
  have h1 : exec (parseBlock (parseFuel tokens) stopRoot) (split tokens) ≠ .outOfFuel :=
    exec_enough (by have := split_size tokens; unfold parseFuel; omega)
  have h2 := (parseBlock_upTo (n := parseFuel tokens) (m := parseFuel tokens) (Nat.le_refl _) h stopRoot).exec
    (split tokens) (by rw [split_tokens]; exact deepTokens_content tokens) h1 h1
  rw [h2]
  exact fun h => h1 (block_outOfFuel.1 h)

example : ∃ tokens, tokenize chars!"IM IN YR l\nVISIBLE NOT x" = .ok (.ok tokens) ∧ deepTokens tokens + 2 ≤ 4 :=
  ⟨_, rfl, by decide +kernel⟩

/-- **C70** The bound on the rounds of the loops in the model does not matter, so that `outOfFuel` does mean that the
stack overflows. -/
theorem C70_loops {loops d : Nat} {tokens : List Token} (h : parseFuel tokens ≤ loops) :
    parseOnStackWith loops d tokens = parseOnStack d tokens := by
  have hs := parseOnStackWith_eq (parseFuel tokens) d tokens
  have hl := parseOnStackWith_eq loops d tokens
  unfold parseOnStack
  rw [hs, hl]
  by_cases h1 : exec (parseBlockIn (parseFuel tokens) d stopRoot) (split tokens) = .outOfFuel
  · by_cases h2 : exec (parseBlockIn loops d stopRoot) (split tokens) = .outOfFuel
    · rw [h1, h2]
    · have h3 : parseOnStack (d + deepTokens tokens + 2) tokens ≠ .outOfFuel := C70_enough (by omega)
      unfold parseOnStack at h3
      rw [parseOnStackWith_eq] at h3
      rw [(parseBlockIn_meet (n := loops) (m := parseFuel tokens) (d := d) (D := d + deepTokens tokens + 2) (by omega)
        stopRoot).exec (split tokens) (Nat.le_refl _) h2 fun e => h3 (by rw [e]; rfl)]
  · rw [(parseBlockIn_more h (Nat.le_refl d) stopRoot).exec (split tokens) (Nat.le_refl _) h1 h1]

example : ∃ tokens, tokenize chars!"VISIBLE NOT x" = .ok (.ok tokens) ∧ parseFuel tokens ≤ 1000 :=
  ⟨_, rfl, by decide +kernel⟩

/-- **C70** What is parsed without an overflow is not nested deeper than the stack: a deeper tree takes more. -/
theorem C70_tree {d : Nat} {tokens : List Token} {nodes : Block} (h : parseOnStack d tokens = .ok nodes) :
    BlockFits d nodes := by
  unfold parseOnStack at h
  rw [parseOnStackWith_eq] at h
  cases hr : exec (parseBlockIn (parseFuel tokens) d stopRoot) (split tokens) with
  | ok b s =>
    rw [hr] at h
    cases h
    exact (parseBlockIn_fits _ d stopRoot).run Stmts.ops hr
  | err e s =>
    rw [hr] at h
    cases h
    cases d with
    | zero => cases hr
    | succ d => exact BlockFits.nodes.2 (by simpa using NodeFits.error d e)
  | panic p => rw [hr] at h; cases h
  | outOfFuel => rw [hr] at h; cases h

-- `NOT` in `SUM OF`, in a block: four levels
example : ∃ tokens nodes, tokenize chars!"SUM OF 1 AN NOT x" = .ok (.ok tokens) ∧ deepTokens tokens = 2 ∧
    parse tokens = .ok nodes ∧ parseOnStack 4 tokens = .ok nodes ∧ parseOnStack 3 tokens = .outOfFuel :=
  ⟨_, _, rfl, rfl, rfl, rfl, rfl⟩

-- An error may take more than its node: `NOT NOT` without operand takes four levels, of which nothing is left
example : ∃ tokens nodes, tokenize chars!"NOT NOT GTFO" = .ok (.ok tokens) ∧ parse tokens = .ok nodes ∧
    nodes.length = 1 ∧ parseOnStack 4 tokens = .ok nodes ∧ parseOnStack 3 tokens = .outOfFuel :=
  ⟨_, _, rfl, rfl, rfl, rfl, rfl⟩

/-- **C70** The depth of the tree is exactly the stack that it takes, if there are no errors in it. -/
theorem C70_exact {tokens : List Token} {nodes : Block} (h : parse tokens = .ok nodes) (he : errorFreeBlock nodes)
    (d : Nat) : parseOnStack d tokens = .ok nodes ↔ BlockFits d nodes := by
  refine ⟨C70_tree, fun hf => ?_⟩
  rw [parse, parseWith_eq] at h
  unfold parseOnStack
  rw [parseOnStackWith_eq]
  cases hr : exec (parseBlock (parseFuel tokens) stopRoot) (split tokens) with
  | ok b s =>
    rw [hr] at h
    cases h
    rw [parseBlock_sim (Nat.le_refl _) stopRoot (split tokens) nodes s hr ⟨he, hf⟩]
    rfl
  | err e s => rw [hr] at h; cases h; simp [errorFreeBlock, Node.ErrorFree] at he
  | panic p => rw [hr] at h; cases h
  | outOfFuel => rw [hr] at h; cases h

-- A loop with a condition in a branch of `O RLY?`
example : ∃ tokens nodes,
    tokenize chars!"O RLY?\nYA RLY\nIM IN YR l TIL BOTH SAEM x AN 1\nVISIBLE x\nIM OUTTA YR l\nOIC\n" = .ok (.ok tokens) ∧
    parse tokens = .ok nodes ∧ errorFreeBlock nodes ∧ parseOnStack 4 tokens = .ok nodes ∧
    parseOnStack 3 tokens = .outOfFuel := by
  refine ⟨_, _, rfl, rfl, ?_, rfl, rfl⟩
  simp [errorFreeBlock, Node.ErrorFree, errorFreeYaRly, errorFreeMebbes, errorFreeNoWai]

theorem notTower_fits {d n : Nat} {e : Expr} (h : e.map Token.unplaced = notTower n) (hf : e.Fits d) : n < d := by
  induction n generalizing d e with
  | zero => cases hf <;> omega
  | succ n ih =>
    cases hf with
    | value => simp [Expr.map, notTower] at h
    | binary => simp [Expr.map, notTower] at h
    | nary => simp [Expr.map, notTower] at h
    | unary hf =>
      simp only [Expr.map, notTower, Expr.unary.injEq] at h
      exact Nat.succ_lt_succ (ih h.2 hf)

theorem ifTower_fits {d n : Nat} {b : Block} (h : mapBlock Token.unplaced b = ifTower n) (hf : BlockFits d b) :
    n < d := by
  induction n generalizing d b with
  | zero => cases hf; omega
  | succ n ih =>
    cases hf with
    | mk h1 h2 =>
      match b with
      | [] => simp [mapBlock, ifTower] at h
      | [node] =>
        cases node with
        | oRly t y w m =>
          match y with
          | none => simp [mapBlock, ifTower, Node.map, mapYaRly] at h
          | some (.mk t' inner) =>
            simp only [mapBlock, ifTower, Node.map, mapYaRly, List.cons.injEq, Node.oRly.injEq, Option.some.injEq,
              YaRly.mk.injEq] at h
            exact Nat.succ_lt_succ (ih h.1.2.1.2 (h2 _ List.mem_cons_self inner (by simp [Node.blocks])))
        | _ => simp [mapBlock, ifTower, Node.map] at h
      | _ :: _ :: _ => simp [mapBlock, ifTower] at h

theorem parseOnStack_small {d : Nat} {tokens : List Token} {nodes : Block} (h : parse tokens = .ok nodes)
    (hf : ¬ BlockFits d nodes) : parseOnStack d tokens = .outOfFuel := by
  cases hr : parseOnStack d tokens with
  | outOfFuel => rfl
  | ok b =>
    have := C70_same (d := d) (tokens := tokens) (by rw [hr]; simp)
    rw [hr, h] at this
    cases this
    exact absurd (C70_tree hr) hf
  | panic p =>
    have := C70_same (d := d) (tokens := tokens) (by rw [hr]; simp)
    rw [hr, h] at this
    cases this

theorem tokenizeAndParse_tokens {text : Str} {nodes : Block} (h : tokenizeAndParse text = .ok (.ok nodes)) :
    ∃ tokens, tokenize text = .ok (.ok tokens) ∧ parse tokens = .ok nodes := by
  unfold tokenizeAndParse at h
  cases ht : tokenize text with
  | ok r =>
    rw [ht] at h
    cases r with
    | error e => cases h
    | ok tokens =>
      refine ⟨tokens, rfl, ?_⟩
      cases hp : parse tokens with
      | ok b =>
        change (parse tokens >>= fun block => (pure (Except.ok block) : Out (Except TokenError Block))) = _ at h
        rw [hp] at h
        cases h
        rfl
      | panic p =>
        change (parse tokens >>= fun block => (pure (Except.ok block) : Out (Except TokenError Block))) = _ at h
        rw [hp] at h
        cases h
      | outOfFuel =>
        change (parse tokens >>= fun block => (pure (Except.ok block) : Out (Except TokenError Block))) = _ at h
        rw [hp] at h
        cases h
  | panic p => rw [ht] at h; cases h
  | outOfFuel => rw [ht] at h; cases h

/-- **C70** No stack is large enough for all programs: for every size there is a program that consists of one
expression, and a program that consists of nested `O RLY?` only, on which `parse` overflows the stack. -/
theorem C70_unbounded (d : Nat) :
    (∃ text tokens nodes, tokenize text = .ok (.ok tokens) ∧ parse tokens = .ok nodes ∧
      mapBlock Token.unplaced nodes = [.expression (notTower d)] ∧ parseOnStack d tokens = .outOfFuel) ∧
    ∃ text tokens nodes, tokenize text = .ok (.ok tokens) ∧ parse tokens = .ok nodes ∧
      mapBlock Token.unplaced nodes = ifTower d ∧ parseOnStack d tokens = .outOfFuel := by
  obtain ⟨⟨t1, n1, h1, e1⟩, t2, n2, h2, e2⟩ := C61_depth d
  obtain ⟨k1, a1, b1⟩ := tokenizeAndParse_tokens h1
  obtain ⟨k2, a2, b2⟩ := tokenizeAndParse_tokens h2
  refine ⟨⟨t1, k1, n1, a1, b1, e1, parseOnStack_small b1 fun hf => ?_⟩,
    t2, k2, n2, a2, b2, e2, parseOnStack_small b2 fun hf => Nat.lt_irrefl _ (ifTower_fits e2 hf)⟩
  cases hf with
  | @mk d b hx _ =>
    match n1 with
    | [] => simp [mapBlock] at e1
    | [node] =>
      cases node with
      | expression e =>
        simp only [mapBlock, Node.map, List.cons.injEq, Node.expression.injEq, and_true] at e1
        refine absurd (notTower_fits e1 (hx _ List.mem_cons_self e ?_)) (by omega)
        cases e with
        | unary => simp [Node.parsedExprs, Node.exprs]
        | _ => simp [Expr.map, notTower] at e1
      | _ => simp [mapBlock, Node.map] at e1
    | _ :: _ :: _ => simp [mapBlock] at e1

/-! ## `StatementIterator::next` -/

/-- **C70** `next` calls itself once for every ellipsis that it passes: it takes one call more than there are ellipses
in front of the next token, if the first of them is on the line of the statement. -/
theorem C70_next (d : Nat) (rest : List Token) (line : Int) :
    StatementIterator.nextRawIn d rest line =
      if (if rest.head?.map Token.line = some line then (rest.takeWhile (·.tokenType = .ellipsis)).length else 0) < d
      then some (StatementIterator.nextRaw rest line) else none := by
  induction d generalizing rest line with
  | zero => rfl
  | succ d ih =>
    match rest with
    | [] => simp [StatementIterator.nextRawIn, StatementIterator.nextRaw]
    | t :: rest =>
      rw [StatementIterator.nextRawIn, StatementIterator.nextRaw]
      have hc : ∀ {c : Prop} [Decidable c] {n : Nat}, ¬ t.tokenType = .ellipsis →
          (if c then ((t :: rest).takeWhile (·.tokenType = .ellipsis)).length else n) ≤ n := by
        intro c _ n h
        split
        · simp [h]
        · exact Nat.le_refl _
      by_cases h1 : t.tokenType = .comma
      · rw [if_pos h1, if_pos h1, if_pos (Nat.lt_succ_of_le (Nat.le_trans (hc (by simp [h1])) (Nat.zero_le _)))]
      rw [if_neg h1, if_neg h1]
      by_cases h2 : t.tokenType = .ellipsis ∧ t.line = line
      · rw [if_pos h2, if_pos h2, ih]
        have : (if rest.head?.map Token.line = some (StatementIterator.lineOfNext rest line)
            then (rest.takeWhile (·.tokenType = .ellipsis)).length else 0) =
            (rest.takeWhile (·.tokenType = .ellipsis)).length := by
          cases rest with
          | nil => simp
          | cons u r => simp [StatementIterator.lineOfNext]
        rw [this]
        simp [h2.1, h2.2]
      · rw [if_neg h2, if_neg h2]
        have : (if (t :: rest).head?.map Token.line = some line
            then ((t :: rest).takeWhile (·.tokenType = .ellipsis)).length else 0) < d + 1 := by
          by_cases h3 : t.tokenType = .ellipsis
          · rw [if_neg (by simpa using fun h => h2 ⟨h3, h⟩)]
            exact Nat.zero_lt_succ _
          · exact Nat.lt_succ_of_le (Nat.le_trans (hc h3) (Nat.zero_le _))
        rw [if_pos this]
        by_cases h4 : t.line = line
        · rw [if_pos h4, if_pos h4]
        · rw [if_neg h4, if_neg h4]

-- Three ellipses in one call; four calls are enough, three are not
example : ∃ tokens, tokenize chars!".........\nx" = .ok (.ok tokens) ∧
    StatementIterator.nextRawIn 4 tokens 1 = some (StatementIterator.nextRaw tokens 1) ∧
    (StatementIterator.nextRaw tokens 1).1.map (·.tokenType) = some (.identifier ['x']) ∧
    StatementIterator.nextRawIn 3 tokens 1 = none := ⟨_, rfl, rfl, rfl, rfl⟩

end Lol
