import Verif.Parser.EqualityLemmas
import Verif.Parser.PlaceLemmas
import Verif.Parser.ShapeLemmas
import Verif.Props.LexerCompose
import Verif.Props.LexerEquality
import Verif.Props.ParserMap
import Verif.Props.ParserTree

/-! # Properties of `==` on syntax trees (C62, C63) -/

namespace Lol

/-! ## C62: what equality of trees means -/

section
variable (eq : Token → Token → Bool)

/-- **C62** Two blocks are equal (`==`) if and only if they have the same shape and their tokens, from left to right,
are equal one by one. -/
theorem C62_block_eq (a b : Block) :
    eqBlock eq a b = true ↔ shapeBlock a = shapeBlock b ∧ (toksBlock a).isEqv (toksBlock b) eq = true := by
  refine ⟨fun h => ?_, fun ⟨h, h'⟩ => by rw [← h', (pairs_block a b h).iff]⟩
  have hs := shape_of_eqBlock a b h
  exact ⟨hs, by rw [(pairs_block a b hs).iff, h]⟩

/-- **C62** The same for nodes. -/
theorem C62_node_eq (a b : Node) :
    a.beq eq b = true ↔ a.shape = b.shape ∧ a.toks.isEqv b.toks eq = true := by
  refine ⟨fun h => ?_, fun ⟨h, h'⟩ => by rw [← h', (Node.pairs a b h).iff]⟩
  have hs := Node.shape_of_beq a b h
  exact ⟨hs, by rw [(Node.pairs a b hs).iff, h]⟩

/-- **C62** The same for expressions. -/
theorem C62_expr_eq (a b : Expr) :
    a.beq eq b = true ↔ a.shape = b.shape ∧ a.toks.isEqv b.toks eq = true := by
  refine ⟨fun h => ?_, fun ⟨h, h'⟩ => by rw [← h', (Expr.pairs a b h).iff]⟩
  have hs := Expr.shape_of_beq a b h
  exact ⟨hs, by rw [(Expr.pairs a b hs).iff, h]⟩

end

-- The same tokens, but other shapes
example (t : Token) : Node.toks (.gtfo t) = Node.toks (.kThxBye t) ∧ Node.shape (.gtfo t) ≠ Node.shape (.kThxBye t) ∧
    Node.beq (fun _ _ => true) (.gtfo t) (.kThxBye t) = false := by
  refine ⟨?_, ?_, ?_⟩ <;> simp [Node.toks, Node.shape, Node.map, Node.beq]

theorem isEqv_of_mem {α : Type} {eq eq' : α → α → Bool} : {a b : List α} →
    (∀ t ∈ a, ∀ u ∈ b, eq t u = true → eq' t u = true) → a.isEqv b eq = true → a.isEqv b eq' = true
  | [], [], _, _ => rfl
  | [], _ :: _, _, h => by simp [List.isEqv] at h
  | _ :: _, [], _, h => by simp [List.isEqv] at h
  | x :: a, y :: b, H, h => by
    simp only [List.isEqv, Bool.and_eq_true] at h ⊢
    exact ⟨H x (by simp) y (by simp) h.1, isEqv_of_mem (fun t ht u hu => H t (by simp [ht]) u (by simp [hu])) h.2⟩

theorem isEqv_self {α : Type} {eq : α → α → Bool} : (a : List α) → (∀ t ∈ a, eq t t = true) → a.isEqv a eq = true
  | [], _ => rfl
  | x :: a, H => by
    simp only [List.isEqv, Bool.and_eq_true]
    exact ⟨H x (by simp), isEqv_self a fun t ht => H t (by simp [ht])⟩

/-- **C62** A tree is determined by its shape and its tokens. -/
theorem C62_determined (a b : Block) : a = b ↔ shapeBlock a = shapeBlock b ∧ toksBlock a = toksBlock b := by
  refine ⟨fun h => by rw [h]; exact ⟨rfl, rfl⟩, fun ⟨h, h'⟩ => ?_⟩
  refine eq_of_eqBlock (eq := fun t u => decide (t = u)) (fun t u h => of_decide_eq_true h) a b ?_
  rw [C62_block_eq]
  exact ⟨h, h' ▸ isEqv_self _ fun t _ => decide_eq_true rfl⟩

-- The shape and the tokens are both needed
example : ∃ t u : Token, t ≠ u ∧ shapeBlock [.gtfo t] = shapeBlock [.gtfo u] ∧
    toksBlock [.gtfo t] = toksBlock [.kThxBye t] ∧ shapeBlock [.gtfo t] ≠ shapeBlock [.kThxBye t] := by
  refine ⟨⟨.comma, ⟨⟨0, 0, 0, 0⟩, ⟨0, 0, 0, 0⟩⟩⟩, ⟨.ellipsis, ⟨⟨0, 0, 0, 0⟩, ⟨0, 0, 0, 0⟩⟩⟩, by simp, rfl, rfl, ?_⟩
  simp [shapeBlock, mapBlock, Node.map]

/-- **C62** `==` is an equivalence whenever the comparison of tokens is one. -/
theorem C62_equivalence (eq : Token → Token → Bool) (h1 : ∀ t, eq t t = true)
    (h2 : ∀ t u, eq t u = true → eq u t = true)
    (h3 : ∀ t u v, eq t u = true → eq u v = true → eq t v = true) :
    (∀ a : Block, eqBlock eq a a = true) ∧ (∀ a b : Block, eqBlock eq a b = true → eqBlock eq b a = true) ∧
      ∀ a b c : Block, eqBlock eq a b = true → eqBlock eq b c = true → eqBlock eq a c = true := by
  have symm : ∀ a b : List Token, a.isEqv b eq = true → b.isEqv a eq = true := by
    intro a
    induction a with
    | nil => intro b h; cases b <;> simp_all [List.isEqv]
    | cons x a ih =>
      intro b h
      cases b with
      | nil => simp [List.isEqv] at h
      | cons y b =>
        simp only [List.isEqv, Bool.and_eq_true] at h ⊢
        exact ⟨h2 _ _ h.1, ih b h.2⟩
  have trans : ∀ a b c : List Token, a.isEqv b eq = true → b.isEqv c eq = true → a.isEqv c eq = true := by
    intro a
    induction a with
    | nil => intro b c h h'; cases b <;> cases c <;> simp_all [List.isEqv]
    | cons x a ih =>
      intro b c h h'
      cases b with
      | nil => simp [List.isEqv] at h
      | cons y b =>
        cases c with
        | nil => simp [List.isEqv] at h'
        | cons z c =>
          simp only [List.isEqv, Bool.and_eq_true] at h h' ⊢
          exact ⟨h3 _ _ _ h.1 h'.1, ih b c h.2 h'.2⟩
  refine ⟨fun a => (C62_block_eq ..).2 ⟨rfl, isEqv_self _ fun t _ => h1 t⟩, fun a b h => ?_, fun a b c h h' => ?_⟩
  · rw [C62_block_eq] at h ⊢
    exact ⟨h.1.symm, symm _ _ h.2⟩
  · rw [C62_block_eq] at h h' ⊢
    exact ⟨h.1.trans h'.1, trans _ _ _ h.2 h'.2⟩

example : ∃ eq : Token → Token → Bool, (∀ t, eq t t = true) ∧ (∀ t u, eq t u = true → eq u t = true) ∧
    (∀ t u v, eq t u = true → eq u v = true → eq t v = true) ∧ ∃ t u, t ≠ u ∧ eq t u = true :=
  ⟨fun t u => decide (t.range = u.range), by simp, by simp_all, by simp_all,
    ⟨.comma, ⟨⟨0, 0, 0, 0⟩, ⟨0, 0, 0, 0⟩⟩⟩, ⟨.ellipsis, ⟨⟨0, 0, 0, 0⟩, ⟨0, 0, 0, 0⟩⟩⟩, by simp, by simp⟩

/-! ## C62: equality within one source -/

/-- **C62** Within one source two nodes are equal (`==`) only if they are the same node. -/
theorem C62_same_source {code : Str} {nodes : Block}
    (h : tokenizeAndParse code = .ok (.ok nodes)) {x y : Node} (hx : x ∈ allNodes nodes) (hy : y ∈ allNodes nodes) :
    x.beq Token.eq y = true ↔ x = y := by
  obtain ⟨tokens, h1, h2⟩ := (C46_ok_iff code nodes).1 h
  have hw := C50_well_formed tokens nodes h2
  have hs := C22_tokens_sublist tokens nodes h2
  have hx' : ∀ t ∈ x.toks, t ∈ tokens := fun t ht => ((allNodes_wf nodes hw x hx).2.trans hs).subset ht
  have hy' : ∀ t ∈ y.toks, t ∈ tokens := fun t ht => ((allNodes_wf nodes hw y hy).2.trans hs).subset ht
  constructor
  · intro he
    rw [C62_node_eq] at he
    refine Node.eq_of_beq (eq := fun t u => decide (t = u)) (fun t u h => of_decide_eq_true h) x y ?_
    rw [C62_node_eq]
    exact ⟨he.1, isEqv_of_mem (fun t ht u hu e => decide_eq_true ((C58_token_eq h1 (hx' t ht) (hy' u hu)).1 e)) he.2⟩
  · rintro rfl
    rw [C62_node_eq]
    exact ⟨rfl, isEqv_self _ fun t ht => (C58_token_eq h1 (hx' t ht) (hx' t ht)).2 rfl⟩

example : ∃ nodes x y, tokenizeAndParse chars!"GTFO\nGTFO" = .ok (.ok nodes) ∧ x ∈ allNodes nodes ∧ y ∈ allNodes nodes ∧
    x.beq Token.eq y = false :=
  ⟨_, _, _, rfl, .head _, .tail _ (.head _), by decide +kernel⟩

/-- **C62** The nodes at different places of a tree are different (`==`), wherever they are. -/
theorem C62_places {code : Str} {nodes : Block}
    (h : tokenizeAndParse code = .ok (.ok nodes)) :
    (allNodes nodes).Pairwise fun x y => x.beq Token.eq y = false := by
  obtain ⟨tokens, h1, h2⟩ := (C46_ok_iff code nodes).1 h
  have hs := C22_tokens_sublist tokens nodes h2
  obtain ⟨h3, h4⟩ := C04_ranges_ordered h1
  have hd : tokens.Nodup := by
    rw [List.nodup_iff_pairwise_ne]
    refine (List.pairwise_iff_forall_sublist.2 fun {a b} hab => ?_)
    have := List.pairwise_iff_forall_sublist.1 h4 hab
    rintro rfl
    have := h3 a (hab.subset (by simp))
    omega
  obtain ⟨hp, -⟩ := allNodes_places nodes (parse_solid h2) (hd.sublist hs)
  refine (List.pairwise_iff_forall_sublist.2 fun {x y} hxy => ?_)
  have hne := List.pairwise_iff_forall_sublist.1 hp hxy
  rw [Bool.eq_false_iff]
  intro he
  exact hne (congrArg _ ((C62_same_source h (hxy.subset (by simp)) (hxy.subset (by simp))).1 he))

-- Four nodes: a function, a loop in it and two statements in the loop, which are written alike
example : ∃ nodes, tokenizeAndParse chars!"HOW IZ I f\nIM IN YR a\nGTFO\nGTFO\nIM OUTTA YR a\nIF U SAY SO" =
    .ok (.ok nodes) ∧ (allNodes nodes).length = 4 ∧
    (allNodes nodes).map (fun x => (allNodes nodes).map (x.beq Token.eq)) =
      [[true, false, false, false], [false, true, false, false], [false, false, true, false],
        [false, false, false, true]] := by
  refine ⟨_, rfl, ?_, ?_⟩ <;> decide +kernel

/-- **C62** Trees of different sources can be equal without being the same: only line and column count. -/
theorem C62_across_sources : ∃ a b, tokenizeAndParse chars!"VISIBLE x\nGTFO" = .ok (.ok a) ∧
    tokenizeAndParse chars!"VISIBLE x  \nGTFO" = .ok (.ok b) ∧ a ≠ b ∧ eqBlock Token.eq a b = true := by
  refine ⟨_, _, rfl, rfl, ?_, by decide +kernel⟩
  intro h
  exact absurd (congrArg toksBlock h) (by decide +kernel)

/-! ## C63: equal tokens are parsed to equal trees -/

/-- Both panic at the same place, or both succeed with equal trees. -/
def SameOutcome (eq : Token → Token → Bool) : Out Block → Out Block → Prop
  | .ok a, .ok b => eqBlock eq a b = true
  | .panic p, .panic q => p = q
  | _, _ => False

theorem isEqv_map_map {α β : Type} {eq : β → β → Bool} {f g : α → β} : (a : List α) →
    (∀ t ∈ a, eq (f t) (g t) = true) → (a.map f).isEqv (a.map g) eq = true
  | [], _ => rfl
  | x :: a, H => by
    simp only [List.map_cons, List.isEqv, Bool.and_eq_true]
    exact ⟨H x (by simp), isEqv_map_map a fun t ht => H t (by simp [ht])⟩

theorem isEqv_getElem {α : Type} {eq : α → α → Bool} : {a b : List α} → a.isEqv b eq = true →
    a.length = b.length ∧ ∀ i (h : i < a.length) (h' : i < b.length), eq a[i] b[i] = true
  | [], [], _ => ⟨rfl, fun i h => absurd h (Nat.not_lt_zero i)⟩
  | [], _ :: _, h => by simp [List.isEqv] at h
  | _ :: _, [], h => by simp [List.isEqv] at h
  | x :: a, y :: b, h => by
    simp only [List.isEqv, Bool.and_eq_true] at h
    obtain ⟨h1, h2⟩ := isEqv_getElem h.2
    refine ⟨by simp [h1], fun i hi hi' => ?_⟩
    cases i with
    | zero => exact h.1
    | succ i => exact h2 i (by simpa using hi) (by simpa using hi')

theorem sameOutcome_map {eq : Token → Token → Bool} {f g : Token → Token} (hf : KeepsKind f) (hg : KeepsKind g)
    (s : Stmts) (h : ∀ t ∈ s.tokens, eq (f t) (g t) = true) :
    SameOutcome eq (parseStmts (s.map f)) (parseStmts (s.map g)) := by
  have hp := parseStmts_post s
  rw [parseStmts_map hf, parseStmts_map hg]
  cases hs : parseStmts s with
  | ok b =>
    rw [hs] at hp
    simp only [mapOutcome, SameOutcome]
    rw [C62_block_eq, shapeBlock_map, shapeBlock_map, toksBlock_map, toksBlock_map]
    exact ⟨rfl, isEqv_map_map _ fun t ht => h t (hp.1.subset ht)⟩
  | panic p => exact rfl
  | outOfFuel => rw [hs] at hp; exact hp

/-- Number a token. -/
def Token.number (k i : Nat) (t : Token) : Token :=
  { t with range := { t.range with stop := { t.range.stop with bytes := k, chars := i } } }

/-- The token with the number of `v`, if it has the kind of `v`. -/
def lookup (st : Nat → List Token) (v : Token) : Token :=
  match (st v.range.stop.bytes.toNat)[v.range.stop.chars.toNat]? with
  | some t => if t.tokenType.kind = v.tokenType.kind then t else v
  | none => v

theorem lookup_keeps (st : Nat → List Token) : KeepsKind (lookup st) := by
  intro v
  unfold lookup
  split
  · split
    · assumption
    · rfl
  · rfl

theorem lookup_number {st : Nat → List Token} {k i : Nat} {t u : Token} (h : (st k)[i]? = some u)
    (hk : u.tokenType.kind = t.tokenType.kind) : lookup st (t.number k i) = u := by
  simp only [lookup, Token.number, Int.toNat_natCast, h, hk, if_true]

/-- **C63** When the statements of two token lists are equal token by token, for any comparison that tells kinds of
tokens apart, then `parse` gives equal trees, or panics on both at the same place. -/
theorem C63_statements {eq : Token → Token → Bool}
    (hk : ∀ t u, eq t u = true → t.tokenType.kind = u.tokenType.kind) {ts us : List Token}
    (h : ∀ k, (stmt ts k).isEqv (stmt us k) eq = true) : SameOutcome eq (parse ts) (parse us) := by
  -- number the tokens of the statements
  let V : List (List Token) := (split ts).all.mapIdx fun k st => st.mapIdx fun i t => t.number k i
  have hV : ∀ k, V.getD k [] = (stmt ts k).mapIdx fun i t => t.number k i := by
    intro k
    simp only [V, stmt, List.getD_eq_getElem?_getD, List.getElem?_mapIdx]
    cases (split ts).all[k]? <;> simp
  have hall : ∀ f : Token → Token, ∀ k, ((Stmts.of V).map f).all.getD k [] = (V.getD k []).map f := by
    intro f k
    have : (Stmts.of V).all = V := by
      simp only [V, Stmts.all, List.mapIdx_cons]
      rfl
    show ((Stmts.of V).all.map (List.map f)).getD k [] = _
    rw [this, List.getD_eq_getElem?_getD, List.getD_eq_getElem?_getD, List.getElem?_map]
    cases V[k]? <;> rfl
  have e1 : parse ts = parseStmts ((Stmts.of V).map (lookup (stmt ts))) := by
    rw [parse_eq]
    refine parseStmts_congr fun k => ?_
    rw [hall, hV]
    show stmt ts k = _
    refine List.ext_getElem (by simp) fun i h1 h2 => ?_
    rw [List.getElem_map, List.getElem_mapIdx, lookup_number (List.getElem?_eq_getElem h1) rfl]
  have e2 : parse us = parseStmts ((Stmts.of V).map (lookup (stmt us))) := by
    rw [parse_eq]
    refine parseStmts_congr fun k => ?_
    rw [hall, hV]
    show stmt us k = _
    obtain ⟨h3, h4⟩ := isEqv_getElem (h k)
    refine List.ext_getElem (by simp [h3]) fun i h1 h2 => ?_
    rw [List.getElem_map, List.getElem_mapIdx, lookup_number (List.getElem?_eq_getElem h1)
      (hk _ _ (h4 i (by omega) h1)).symm]
  rw [e1, e2]
  refine sameOutcome_map (lookup_keeps _) (lookup_keeps _) _ fun v hv => ?_
  have hv' : ∃ k, v ∈ V.getD k [] := by
    have : v ∈ V.flatten := by
      have ht : (Stmts.of V).tokens = V.flatten := by cases V <;> rfl
      exact ht ▸ hv
    obtain ⟨l, hl, hvl⟩ := List.mem_flatten.1 this
    obtain ⟨k, hk, rfl⟩ := List.getElem_of_mem hl
    exact ⟨k, by rw [List.getD_eq_getElem?_getD, List.getElem?_eq_getElem hk]; exact hvl⟩
  obtain ⟨k, hv'⟩ := hv'
  rw [hV] at hv'
  obtain ⟨i, hi, rfl⟩ := List.getElem_of_mem hv'
  rw [List.length_mapIdx] at hi
  obtain ⟨h3, h4⟩ := isEqv_getElem (h k)
  have he := h4 i hi (h3 ▸ hi)
  rw [List.getElem_mapIdx, lookup_number (List.getElem?_eq_getElem hi) rfl,
    lookup_number (List.getElem?_eq_getElem (h3 ▸ hi)) (hk _ _ he).symm]
  exact he

example : (∀ t u : Token, (decide (t.tokenType = u.tokenType)) = true → t.tokenType.kind = u.tokenType.kind) ∧
    ∃ ts us, tokenize chars!"x R 1, GTFO" = .ok (.ok ts) ∧ tokenize chars!"x R 1\nGTFO" = .ok (.ok us) ∧ ts ≠ us ∧
      ∀ k, (stmt ts k).isEqv (stmt us k) (fun t u => decide (t.tokenType = u.tokenType)) = true := by
  refine ⟨fun t u h => by rw [of_decide_eq_true h], _, _, rfl, rfl, by decide +kernel, fun k => ?_⟩
  match k with
  | 0 => decide +kernel
  | 1 => decide +kernel
  | k + 2 => rfl

theorem split_isEqv {eq : Token → Token → Bool} (hk : ∀ t u, eq t u = true →
    t.tokenType.kind = u.tokenType.kind ∧ t.range.start.line = u.range.start.line) :
    (ts us : List Token) → ts.isEqv us eq = true →
      (∀ l, (splitFrom ts l).all.isEqv (splitFrom us l).all (·.isEqv · eq) = true) ∧
        (splitGap ts).isEqv (splitGap us) (·.isEqv · eq) = true
  | [], [], _ => by simp [splitFrom, splitGap, Stmts.all, List.isEqv]
  | [], _ :: _, h => by simp [List.isEqv] at h
  | _ :: _, [], h => by simp [List.isEqv] at h
  | t :: ts, u :: us, h => by
    simp only [List.isEqv, Bool.and_eq_true] at h
    obtain ⟨ih1, ih2⟩ := split_isEqv hk ts us h.2
    obtain ⟨hkind, hl⟩ := hk t u h.1
    have hc : t.tokenType = .comma ↔ u.tokenType = .comma := by
      have := SameKind.of_kind hkind
      revert this; generalize t.tokenType = x, u.tokenType = y
      intro this; cases this <;> simp
    have he : t.tokenType = .ellipsis ↔ u.tokenType = .ellipsis := by
      have := SameKind.of_kind hkind
      revert this; generalize t.tokenType = x, u.tokenType = y
      intro this; cases this <;> simp
    have hfirst : ∀ l, firstLine ts l = firstLine us l := by
      intro l
      cases ts <;> cases us <;> simp only [firstLine] <;> simp [List.isEqv] at h
      exact (hk _ _ h.2.1).2
    have hpush : ∀ l, ((splitFrom ts l).push t).all.isEqv ((splitFrom us l).push u).all (·.isEqv · eq) = true := by
      intro l
      have := ih1 l
      simp only [Stmts.all, Stmts.push, List.isEqv, Bool.and_eq_true] at this ⊢
      exact ⟨⟨h.1, this.1⟩, this.2⟩
    have hnil : ∀ L L' : List (List Token), L.isEqv L' (·.isEqv · eq) = true →
        (Stmts.all ⟨[], L⟩).isEqv (Stmts.all ⟨[], L'⟩) (·.isEqv · eq) = true := by
      intro L L' h; simp [Stmts.all, List.isEqv, h]
    refine ⟨fun l => ?_, ?_⟩
    · rw [splitFrom, splitFrom]
      simp only [hc, he, hl, hfirst]
      (repeat' split) <;> first
        | exact hnil _ _ ih2
        | exact ih1 _
        | exact hpush _
        | exact hnil _ _ (ih1 _)
        | exact hnil _ _ (hpush _)
    · rw [splitGap, splitGap]
      simp only [hc, he, hl, hfirst]
      (repeat' split) <;> first | exact ih2 | exact ih1 _ | exact hpush _

/-- **C63** When two token lists are equal token by token, for any comparison that tells kinds and lines of tokens
apart, then `parse` gives equal trees, or panics on both at the same place. -/
theorem C63_tokens {eq : Token → Token → Bool} (hk : ∀ t u, eq t u = true →
    t.tokenType.kind = u.tokenType.kind ∧ t.range.start.line = u.range.start.line) {ts us : List Token}
    (h : ts.isEqv us eq = true) : SameOutcome eq (parse ts) (parse us) := by
  refine C63_statements (fun t u h => (hk t u h).1) fun k => ?_
  have hl : firstLine ts 0 = firstLine us 0 := by
    cases ts <;> cases us <;> simp only [firstLine] <;> simp [List.isEqv] at h
    exact (hk _ _ h.1).2
  obtain ⟨h1, h2⟩ := isEqv_getElem ((split_isEqv hk ts us h).1 (firstLine ts 0))
  simp only [stmt, split]
  rw [← hl, List.getD_eq_getElem?_getD, List.getD_eq_getElem?_getD]
  by_cases hlt : k < (splitFrom ts (firstLine ts 0)).all.length
  · rw [List.getElem?_eq_getElem hlt, List.getElem?_eq_getElem (h1 ▸ hlt)]
    exact h2 k hlt (h1 ▸ hlt)
  · rw [List.getElem?_eq_none (by omega), List.getElem?_eq_none (by omega)]
    rfl

theorem Token.eq_kind {t u : Token} (h : Token.eq t u = true) :
    t.tokenType.kind = u.tokenType.kind ∧ t.range.start.line = u.range.start.line := by
  simp only [Token.eq, Bool.and_eq_true] at h
  refine ⟨?_, ((Range.eq_iff _ _).1 h.2).1.1⟩
  have := h.1
  generalize t.tokenType = x, u.tokenType = y at this
  cases x <;> cases y <;> simp_all [TokenType.eq, TokenType.kind]

example : (∀ t u, Token.eq t u = true → t.tokenType.kind = u.tokenType.kind ∧ t.range.start.line = u.range.start.line) ∧
    ∃ ts us, tokenize chars!"x R 1 \nGTFO" = .ok (.ok ts) ∧ tokenize chars!"x R 1\nGTFO" = .ok (.ok us) ∧ ts ≠ us ∧
      ts.isEqv us Token.eq = true :=
  ⟨fun _ _ => Token.eq_kind, _, _, rfl, rfl, by decide +kernel, by decide +kernel⟩

/-- **C63** `parse` takes equal (`==`) token lists to equal trees, or panics on both at the same place. -/
theorem C63_parse {ts us : List Token} (h : ts.isEqv us Token.eq = true) :
    SameOutcome Token.eq (parse ts) (parse us) :=
  C63_tokens (fun _ _ => Token.eq_kind) h

-- The tokens of two sources that differ in white space at the end of a line: different lists, equal token by token
example : ∃ ts us, tokenize chars!"I HAS A x ITZ 12  \nVISIBLE x" = .ok (.ok ts) ∧
    tokenize chars!"I HAS A x ITZ 12\nVISIBLE x" = .ok (.ok us) ∧ ts ≠ us ∧
    ts.isEqv us Token.eq = true ∧ ∃ a b, parse ts = .ok [.iHasA a, .visible b] := by
  refine ⟨_, _, rfl, rfl, by decide +kernel, by decide +kernel, _, _, rfl⟩

/-- The outcome of `tokenize_and_parse` is equal (`==`): equal trees, or equal errors of the tokenizer, or both panic at
the same place. -/
def SameResult : Out (Except TokenError Block) → Out (Except TokenError Block) → Prop
  | .ok (.ok a), .ok (.ok b) => eqBlock Token.eq a b = true
  | .ok (.error e), .ok (.error e') => e.eq e' = true
  | .panic p, .panic q => p = q
  | _, _ => False

theorem isEqv_append {α : Type} {eq : α → α → Bool} {c d : List α} (h' : c.isEqv d eq = true) : {a b : List α} →
    a.isEqv b eq = true → (a ++ c).isEqv (b ++ d) eq = true
  | [], [], _ => h'
  | [], _ :: _, h => by simp [List.isEqv] at h
  | _ :: _, [], h => by simp [List.isEqv] at h
  | x :: a, y :: b, h => by
    simp only [List.cons_append, List.isEqv, Bool.and_eq_true] at h ⊢
    exact ⟨h.1, isEqv_append h' h.2⟩

/-- **C63** Lines `a` can be replaced by lines `a'` with equal tokens and as many newlines outside tokens: whatever
lines follow, the trees are equal, or the errors or panics are. -/
theorem C63_lines {a a' : Str} {ts ts' : List Token}
    (h : tokenize (a ++ ['\n']) = .ok (.ok ts)) (hend : ∀ t ∈ ts, t.range.stop.bytes ≤ utf8Len a)
    (h' : tokenize (a' ++ ['\n']) = .ok (.ok ts')) (hend' : ∀ t ∈ ts', t.range.stop.bytes ≤ utf8Len a')
    (heq : ts.isEqv ts' Token.eq = true)
    (hl : (lineColumn ts (a ++ ['\n']) 0 1 1).1 = (lineColumn ts' (a' ++ ['\n']) 0 1 1).1) (b : Str) :
    SameResult (tokenizeAndParse (a ++ '\n' :: b)) (tokenizeAndParse (a' ++ '\n' :: b)) := by
  have hb := C01_tokenize_terminates b
  unfold tokenizeAndParse
  rw [C54_lines h hend, C54_lines h' hend']
  simp only [joinLines, ← hl]
  generalize (lineColumn ts (a ++ ['\n']) 0 1 1).1 - 1 = dl
  have hnan : ∀ us, tokenize b = .ok (.ok us) → ∀ t ∈ us, _ := fun us hu t ht => C66_not_nan hu ht
  revert hb hnan
  rcases tokenize b with (e | us) | p | _ <;> intro hb hnan
  · cases e
    simp [Bind.bind, Out.bind, Pure.pure, SameResult, TokenError.shift, TokenError.eq, Range.eq, Position.eq,
      Range.shift, Position.shift]
  · have := C63_parse (isEqv_append (c := us.map (Token.shift 1 dl 0 (utf8Len a + 1) (a.length + 1)))
      (d := us.map (Token.shift 1 dl 0 (utf8Len a' + 1) (a'.length + 1))) (isEqv_map_map us fun t ht => by
        simp [Token.eq, TokenType.eq_refl (hnan us rfl t ht), Token.shift, Range.eq, Position.eq, Range.shift, Position.shift]) heq)
    simp only [Bind.bind, Out.bind, Pure.pure]
    revert this
    generalize parse _ = x, parse _ = y
    cases x <;> cases y <;> exact fun h => h
  · rfl
  · exact absurd rfl hb

-- Spaces at the end of the line
example : ∃ ts ts', tokenize (chars!"I HAS A x ITZ 1  " ++ ['\n']) = .ok (.ok ts) ∧
    (∀ t ∈ ts, t.range.stop.bytes ≤ utf8Len chars!"I HAS A x ITZ 1  ") ∧
    tokenize (chars!"I HAS A x ITZ 1" ++ ['\n']) = .ok (.ok ts') ∧
    (∀ t ∈ ts', t.range.stop.bytes ≤ utf8Len chars!"I HAS A x ITZ 1") ∧ ts.length = 4 ∧
    ts.isEqv ts' Token.eq = true ∧
    (lineColumn ts (chars!"I HAS A x ITZ 1  " ++ ['\n']) 0 1 1).1 =
      (lineColumn ts' (chars!"I HAS A x ITZ 1" ++ ['\n']) 0 1 1).1 := by
  refine ⟨_, _, rfl, ?_, rfl, ?_⟩ <;> decide +kernel

end Lol
