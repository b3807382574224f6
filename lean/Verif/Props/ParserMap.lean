import Verif.Parser.MapLemmas
import Verif.Parser.ParseLemmas
import Verif.Props.LexerTokens

/-! # Properties of `parse`: names, values and positions do not matter (C55) -/

namespace Lol

/-! ## C55: the tree depends only on the kinds of the tokens and on the division into statements -/

/-- Replace the tokens in an outcome of `parse`. -/
def mapOutcome (f : Token → Token) : Out Block → Out Block
  | .ok nodes => .ok (mapBlock f nodes)
  | .panic p => .panic p
  | .outOfFuel => .outOfFuel

theorem Stmts.size_map (f : Token → Token) (s : Stmts) : (s.map f).size = s.size := by
  obtain ⟨c, l⟩ := s
  have h : (l.map (List.map f)).flatten.length = l.flatten.length := by
    induction l with
    | nil => rfl
    | cons a l ih => simp only [List.map_cons, List.flatten_cons, List.length_append, List.length_map, ih]
  simp [Stmts.size, Stmts.map, Stmts.tokens, h]

theorem parseStmts_map {f : Token → Token} (hf : KeepsKind f) (s : Stmts) :
    parseStmts (s.map f) = mapOutcome f (parseStmts s) := by
  unfold parseStmts
  rw [Stmts.size_map, (block_maps hf (s.size + 2) (stop := stopRoot) fun _ => rfl).exec]
  cases exec (parseBlock (s.size + 2) stopRoot) s with
  | ok a s' => rfl
  | err e s' => simp [Res.replace, Res.block, mapOutcome, mapBlock, Node.map]
  | panic p => rfl
  | outOfFuel => rfl

/-- **C55** When the statements of `us` are those of `ts` with every token replaced by one of the same kind, then so
is the tree; `parse` panics on both or on none. -/
theorem C55_replace {f : Token → Token} (hf : ∀ t, (f t).tokenType.kind = t.tokenType.kind) {ts us : List Token}
    (h : ∀ k, stmt us k = (stmt ts k).map f) : parse us = mapOutcome f (parse ts) := by
  rw [parse_eq, parse_eq, ← parseStmts_map hf]
  apply parseStmts_congr
  intro k
  have h' : ((split ts).map f).all.getD k [] = (stmt ts k).map f := by
    show ((split ts).cur.map f :: (split ts).later.map (List.map f)).getD k [] = _
    rw [← List.map_cons (f := List.map f), stmt, List.getD_eq_getElem?_getD, List.getD_eq_getElem?_getD,
      List.getElem?_map]
    show ((split ts).all[k]?.map (List.map f)).getD [] = _
    cases (split ts).all[k]? <;> rfl
  rw [h', ← h k]
  rfl

/-- Doubles the name of an identifier (for the examples below). -/
def renamed (t : Token) : Token :=
  match t.tokenType with
  | .identifier n => { t with tokenType := .identifier (n ++ n) }
  | _ => t

private theorem renamed_kind (t : Token) : (renamed t).tokenType.kind = t.tokenType.kind := by
  unfold renamed
  split
  · next h => rw [h]; rfl
  · rfl

private theorem stmts_of_split {f : Token → Token} {ts us : List Token}
    (h : (split us).all = (split ts).all.map (List.map f)) (k : Nat) : stmt us k = (stmt ts k).map f := by
  rw [stmt, stmt, h, List.getD_eq_getElem?_getD, List.getD_eq_getElem?_getD, List.getElem?_map]
  cases (split ts).all[k]? <;> rfl

-- another name, and two commas instead of one
example : ∃ ts, tokenize chars!"x R 12, GTFO" = .ok (.ok ts) ∧
    (∀ t : Token, (renamed t).tokenType.kind = t.tokenType.kind) ∧
    (∀ k, stmt ((ts.take 4 ++ ts.drop 3).map renamed) k = (stmt ts k).map renamed) ∧
    ∃ a b, parse ts = .ok [.variableAssignment a, .gtfo b] ∧
      parse ((ts.take 4 ++ ts.drop 3).map renamed) =
        .ok [.variableAssignment (a.map renamed), .gtfo (renamed b)] := by
  refine ⟨_, rfl, renamed_kind, fun k => stmts_of_split (by decide +kernel) k, _, _, rfl, rfl⟩

theorem firstLine_map {f : Token → Token} {ts : List Token} {l l' : Int} (S : Token → Prop)
    (hts : ∀ t ∈ ts, S t)
    (hS : ∀ t u, S t → S u → ((f t).range.start.line = (f u).range.start.line ↔ t.range.start.line = u.range.start.line))
    (hl : ∀ t, S t → ((f t).range.start.line = l' ↔ t.range.start.line = l)) :
    ∀ t, S t → ((f t).range.start.line = firstLine (ts.map f) l' ↔ t.range.start.line = firstLine ts l) := by
  cases ts with
  | nil => exact hl
  | cons u ts => exact fun t ht => hS t u ht (hts u (by simp))

theorem split_map {f : Token → Token} (hf : KeepsKind f) (S : Token → Prop)
    (hS : ∀ t u, S t → S u →
      ((f t).range.start.line = (f u).range.start.line ↔ t.range.start.line = u.range.start.line)) (ts : List Token) :
    (∀ t ∈ ts, S t) →
    (∀ l l', (∀ t, S t → ((f t).range.start.line = l' ↔ t.range.start.line = l)) →
      splitFrom (ts.map f) l' = (splitFrom ts l).map f) ∧
    splitGap (ts.map f) = (splitGap ts).map (List.map f) := by
  have hall : ∀ s : Stmts, (s.map f).all = s.all.map (List.map f) := fun s => rfl
  have hpush : ∀ (s : Stmts) t, (s.map f).push (f t) = (s.push t).map f := fun s t => rfl
  induction ts with
  | nil => exact fun _ => ⟨fun _ _ _ => by simp [splitFrom, Stmts.map], by simp [splitGap]⟩
  | cons t ts ih =>
    intro hts
    have ht : S t := hts t (by simp)
    have hts' : ∀ u ∈ ts, S u := fun u hu => hts u (by simp [hu])
    obtain ⟨ih1, ih2⟩ := ih hts'
    have hc := hf.typeEq t (ty := .comma) (by simp)
    have he := hf.typeEq t (ty := .ellipsis) (by simp)
    have hself : ∀ u, S u → ((f u).range.start.line = (f t).range.start.line ↔
        u.range.start.line = t.range.start.line) := fun u hu => hS u t hu ht
    have e1 := ih1 _ _ (firstLine_map S hts' hS hself)
    have e2 := ih1 _ _ hself
    refine ⟨fun l l' hl => ?_, ?_⟩
    · have e3 := ih1 _ _ (firstLine_map S hts' hS hl)
      have e4 := ih1 _ _ hl
      rw [List.map_cons, splitFrom, splitFrom]
      simp only [hc, he, hl t ht, ih2, e1, e2, e3, e4, hall, hpush]
      (repeat' split) <;> rfl
    · rw [List.map_cons, splitGap, splitGap]
      simp only [hc, he, ih2, e1, e2, hall, hpush]
      (repeat' split) <;> rfl

theorem split_map_lines {f : Token → Token} (hf : KeepsKind f) {ts : List Token}
    (hline : ∀ t ∈ ts, ∀ u ∈ ts,
      ((f t).range.start.line = (f u).range.start.line ↔ t.range.start.line = u.range.start.line)) :
    split (ts.map f) = (split ts).map f := by
  cases ts with
  | nil => simp [split, splitFrom, Stmts.map]
  | cons t ts =>
    exact (split_map hf (· ∈ t :: ts) (fun a b ha hb => hline a ha b hb) (t :: ts) fun _ h => h).1 _ _
      fun a ha => hline a ha t (by simp)

/-- **C55** Replacing every token of `ts` by one of the same kind replaces the tokens of the tree, as long as tokens on
the same line stay on the same line and tokens on different lines stay on different lines. -/
theorem C55_map {f : Token → Token} (hf : ∀ t, (f t).tokenType.kind = t.tokenType.kind) {ts : List Token}
    (hline : ∀ t ∈ ts, ∀ u ∈ ts,
      ((f t).range.start.line = (f u).range.start.line ↔ t.range.start.line = u.range.start.line)) :
    parse (ts.map f) = mapOutcome f (parse ts) := by
  rw [parse_eq, parse_eq, split_map_lines hf hline, parseStmts_map hf]

-- another name in every identifier
example : ∃ ts, tokenize chars!"I HAS A x ITZ SUM OF x AN 12\nVISIBLE x y" = .ok (.ok ts) ∧
    (∀ t : Token, (renamed t).tokenType.kind = t.tokenType.kind) ∧
    (∀ t ∈ ts, ∀ u ∈ ts,
      ((renamed t).range.start.line = (renamed u).range.start.line ↔ t.range.start.line = u.range.start.line)) ∧
    ∃ a b, parse ts = .ok [.iHasA a, .visible b] ∧
      parse (ts.map renamed) = .ok [.iHasA (a.map renamed), .visible (b.map renamed)] ∧
      (a.map renamed).identifier.name.tokenType = .identifier chars!"xx" := by
  exact ⟨_, rfl, renamed_kind, by decide +kernel, _, _, rfl, rfl, rfl⟩

/-- **C55** Two token lists whose statements become the same by a replacement of tokens that keeps kinds have trees
that become the same; `parse` panics on both or on none. -/
theorem C55_same {f : Token → Token} (hf : ∀ t, (f t).tokenType.kind = t.tokenType.kind) {ts us : List Token}
    (h : ∀ k, (stmt ts k).map f = (stmt us k).map f) : mapOutcome f (parse ts) = mapOutcome f (parse us) := by
  rw [parse_eq, parse_eq, ← parseStmts_map hf, ← parseStmts_map hf]
  apply parseStmts_congr
  intro k
  have h' : ∀ vs : List Token, ((split vs).map f).all.getD k [] = (stmt vs k).map f := by
    intro vs
    show ((split vs).cur.map _ :: (split vs).later.map (List.map _)).getD k [] = _
    rw [← List.map_cons (f := List.map f), stmt, List.getD_eq_getElem?_getD, List.getD_eq_getElem?_getD,
      List.getElem?_map]
    show ((split vs).all[k]?.map (List.map _)).getD [] = _
    cases (split vs).all[k]? <;> rfl
  rw [h', h', h k]

example : ∃ ts, tokenize chars!"x R 12, GTFO" = .ok (.ok ts) ∧
    (∀ t : Token, (renamed t).tokenType.kind = t.tokenType.kind) ∧
    (∀ k, (stmt (ts.take 4 ++ ts.drop 3) k).map renamed = (stmt ts k).map renamed) := by
  refine ⟨_, rfl, renamed_kind, fun k => ?_⟩
  congr 1

/-- A token without its position, and of its type only the kind. -/
def Token.bare (t : Token) : Token :=
  ⟨t.tokenType.kind, ⟨⟨0, 0, 0, 0⟩, ⟨0, 0, 0, 0⟩⟩⟩

theorem TokenType.kind_kind (ty : TokenType) : ty.kind.kind = ty.kind := by
  cases ty with
  | symbol s => by_cases h : s = ['?'] <;> simp [TokenType.kind, h]
  | _ => rfl

/-- **C55** Two token lists whose statements have the same kinds of tokens give the same tree, up to the names, the
values and the positions in it. -/
theorem C55_kinds {ts us : List Token}
    (h : ∀ k, (stmt ts k).map (·.tokenType.kind) = (stmt us k).map (·.tokenType.kind)) :
    mapOutcome Token.bare (parse ts) = mapOutcome Token.bare (parse us) := by
  refine C55_same (fun t => TokenType.kind_kind _) fun k => ?_
  have hm : ∀ vs : List Token, vs.map Token.bare = (vs.map (·.tokenType.kind)).map fun ty =>
      (⟨ty, ⟨⟨0, 0, 0, 0⟩, ⟨0, 0, 0, 0⟩⟩⟩ : Token) := by
    intro vs
    simp [Token.bare]
  rw [hm, hm, h k]

example : ∃ ts us, tokenize chars!"x R 1, GTFO" = .ok (.ok ts) ∧ tokenize chars!"yz R \"\"\nGTFO" = .ok (.ok us) ∧
    ∀ k, (stmt ts k).map (·.tokenType.kind) = (stmt us k).map (·.tokenType.kind) := by
  refine ⟨_, _, rfl, rfl, fun k => ?_⟩
  match k with
  | 0 => decide +kernel
  | 1 => decide +kernel
  | k + 2 => rfl

/-- **C55** In particular `parse` panics on both, at the same place, or on none. -/
theorem C55_panics {ts us : List Token}
    (h : ∀ k, (stmt ts k).map (·.tokenType.kind) = (stmt us k).map (·.tokenType.kind)) (p : PanicSite) :
    parse ts = .panic p ↔ parse us = .panic p := by
  have := C55_kinds h
  constructor <;> intro h' <;> rw [h'] at this
  · cases hu : parse us <;> rw [hu] at this <;> cases this
    rfl
  · cases hu : parse ts <;> rw [hu] at this <;> cases this
    rfl

private theorem kinds_of_split {ts us : List Token} (h : (split ts).all.map (List.map (·.tokenType.kind)) =
    (split us).all.map (List.map (·.tokenType.kind))) (k : Nat) :
    (stmt ts k).map (·.tokenType.kind) = (stmt us k).map (·.tokenType.kind) := by
  have h' : ∀ vs : List Token, (stmt vs k).map (·.tokenType.kind) =
      ((split vs).all.map (List.map (·.tokenType.kind))).getD k [] := by
    intro vs
    rw [stmt, List.getD_eq_getElem?_getD, List.getD_eq_getElem?_getD, List.getElem?_map]
    cases (split vs).all[k]? <;> rfl
  rw [h', h', h]

-- other names, values, positions and white space, but statement by statement the same kinds
example : ∃ ts us, tokenize chars!"x R 1 \nVISIBLE SUM OF x AN \"a\"!" = .ok (.ok ts) ∧
    tokenize chars!"foo R WIN, VISIBLE   SUM OF bar ...\n AN 2.5!" = .ok (.ok us) ∧
    (∀ k, (stmt ts k).map (·.tokenType.kind) = (stmt us k).map (·.tokenType.kind)) := by
  refine ⟨_, _, rfl, rfl, fun k => ?_⟩
  exact kinds_of_split (by decide +kernel) k

-- and two that panic
example : ∃ ts us, tokenize chars!"x R MAEK 1 A YARN" = .ok (.ok ts) ∧ tokenize chars!"yz R MAEK WIN A YARN" = .ok (.ok us) ∧
    (∀ k, (stmt ts k).map (·.tokenType.kind) = (stmt us k).map (·.tokenType.kind)) ∧
    parse ts = .panic .todoMaek ∧ parse us = .panic .todoMaek := by
  refine ⟨_, _, rfl, rfl, fun k => ?_, rfl, rfl⟩
  exact kinds_of_split (by decide +kernel) k

/-- Replace the tokens in an outcome of `tokenize_and_parse`; a tokenizer error is shifted. -/
def shiftTree (l0 dl dc db dch : Int) : Out (Except TokenError Block) → Out (Except TokenError Block)
  | .ok (.ok nodes) => .ok (.ok (mapBlock (Token.shift l0 dl dc db dch) nodes))
  | .ok (.error e) => .ok (.error (e.shift l0 dl dc db dch))
  | .panic p => .panic p
  | .outOfFuel => .outOfFuel

/-- **C55** White space before the source only shifts the positions in the tree. -/
theorem C55_leading_whitespace (ws code : Str) (h : WsOnly ws) :
    tokenizeAndParse (ws ++ code) = shiftTree 1 (ws.count '\n' : Nat) ((lastLine ws).length : Nat)
      (ws.length : Nat) (ws.length : Nat) (tokenizeAndParse code) := by
  unfold tokenizeAndParse
  rw [C18_leading_whitespace ws code h]
  generalize ((ws.count '\n' : Nat) : Int) = dl, (((lastLine ws).length : Nat) : Int) = dc, ((ws.length : Nat) : Int) = n
  rcases tokenize code with (e | ts) | p | _
  · rfl
  · show Out.bind (parse (ts.map (Token.shift 1 dl dc n n))) _ = shiftTree 1 dl dc n n (Out.bind (parse ts) _)
    rw [C55_map (f := Token.shift 1 dl dc n n) (fun t => rfl) fun t _ u _ => by simp [Token.shift, Range.shift, Position.shift]]
    cases parse ts <;> rfl
  · rfl
  · rfl

example : WsOnly chars!"\n  \t\n " ∧ ∃ a, tokenizeAndParse chars!"GTFO" = .ok (.ok [.gtfo a]) ∧
    tokenizeAndParse (chars!"\n  \t\n " ++ chars!"GTFO") = .ok (.ok [.gtfo (a.shift 1 2 1 6 6)]) := by
  refine ⟨by unfold WsOnly; decide, _, rfl, rfl⟩

end Lol
