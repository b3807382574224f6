import Verif.Parser.ExchangeLemmas
import Verif.Props.InsertProgram

/-! # A program in place of another one in a program without errors (C103) -/

namespace Lol

/-- The statements of a program without errors, none of which is empty. -/
theorem nodesG_of_stmts {L : List (List Token)} {nodes : Block} (hL : L ≠ []) (h0 : [] ∉ L)
    (h : parseStmts (.of L) = .ok nodes) (he : errorFreeBlock nodes)
    (hlast : ∀ node, nodes.getLast? = some node → ¬ node.TakesNext) : NodesG L nodes := by
  have hp := parseStmts_post (.of L)
  rw [h] at hp
  obtain ⟨L', s', ⟨k, h1⟩, h2, h3⟩ := hp.2.2 he
  rw [Stmts.all_of hL] at h1
  have hs : s'.all = [] :: s'.later := by rw [Stmts.all, h2]
  have h3' : NodesG L' nodes := by
    cases h3 with
    | nodes h3 h4 => exact .cons h3 h4
    | skip h3 =>
      obtain ⟨c, L, rfl⟩ := List.exists_cons_of_ne_nil hL
      exact absurd List.mem_cons_self (by rw [(List.cons.inj h1).1] at h0; exact h0)
  have hne : L' ≠ [] := by
    rintro rfl
    obtain ⟨c, L, rfl⟩ := List.exists_cons_of_ne_nil hL
    rw [hs] at h1
    exact h0 (by rw [(List.cons.inj h1).1]; exact List.mem_cons_self)
  rcases h3'.last hlast with he | ⟨M, t, r, hM⟩
  · exact absurd he hne
  · have : L = L' := by
      rcases List.append_eq_append_iff.1 h1 with ⟨c, h4, h5⟩ | ⟨c, h4, h5⟩
      · rcases List.eq_nil_or_concat c with rfl | ⟨c, d, rfl⟩
        · simpa using h4.symm
        · have hd : d = t :: r := by
            rw [hM, List.concat_eq_append, ← List.append_assoc] at h4
            exact (List.cons.inj (List.append_inj_right' h4 rfl)).1.symm
          have : d ∈ List.replicate k ([] : List Token) := by rw [h5]; simp
          rw [List.eq_of_mem_replicate this] at hd
          cases hd
      · cases c with
        | nil => simpa using h4
        | cons d c =>
          rw [hs] at h5
          have hd := (List.cons.inj h5).1
          refine absurd ?_ h0
          rw [h4, ← hd]
          simp
    rwa [this]

theorem Node.takesNext_map (f : Token → Token) (n : Node) : (n.map f).TakesNext ↔ n.TakesNext := by
  cases n <;> simp [Node.map, Node.TakesNext]

theorem mapBlock_getLast? (f : Token → Token) (b : Block) : (mapBlock f b).getLast? = b.getLast?.map (Node.map f) := by
  have : mapBlock f b = b.map (Node.map f) := by
    induction b with
    | nil => rfl
    | cons n b ih => simp [mapBlock, ih]
  rw [this, List.getLast?_map]

theorem errorFree_bare (f : Token → Token) (b : Block) : errorFreeBlock (mapBlock f b) ↔ errorFreeBlock b := by
  rw [errorFreeBlock_errors, errorFreeBlock_errors, errorsBlock_map, List.map_eq_nil_iff]

theorem parse_bare (ts : List Token) :
    mapOutcome Token.unplaced (parse ts) = parseStmts (.of (bareStmts (split ts).all)) := by
  rw [parse_eq, ← parseStmts_map (f := Token.unplaced) fun _ => rfl]
  rfl

theorem BodyText.bare {m : Str} {y : Block} (h : BodyText m y) : ∃ tm, LinesOf m tm ∧ stmt tm 0 ≠ [] ∧
    [] ∉ bareStmts (split tm).all ∧ NodesG (bareStmts (split tm).all) (mapBlock Token.unplaced y) := by
  obtain ⟨tm, h1, h2, h3, h4, h5⟩ := h
  have h0 : [] ∉ bareStmts (split tm).all := by
    intro h
    obtain ⟨x, hx, he⟩ := List.mem_map.1 h
    rw [List.map_eq_nil_iff.1 he] at hx
    exact h2 hx
  refine ⟨tm, h1, fun h => h2 (h ▸ List.mem_cons_self), h0, nodesG_of_stmts (by simp [bareStmts, Stmts.all]) h0 ?_
    ((errorFree_bare _ _).2 h4) ?_⟩
  · rw [← parse_bare, h3]
    rfl
  · intro n hn
    rw [mapBlock_getLast?] at hn
    obtain ⟨n', hn', rfl⟩ := Option.map_eq_some_iff.1 hn
    rw [Node.takesNext_map]
    exact h5 _ hn'

/-- The statements of a source with a program in it, up to positions. -/
theorem LinesOf.with_body {a b : Str} {ta tb : List Token} (ha : LinesOf a ta) (hb : tokenize b = .ok (.ok tb)) :
    ∃ P Q, ∀ m tm, LinesOf m tm → stmt tm 0 ≠ [] → ∃ ts, tokenize (a ++ '\n' :: (m ++ '\n' :: b)) = .ok (.ok ts) ∧
      bareStmts (split ts).all = P ++ (bareStmts (split tm).all ++ Q) := by
  refine ⟨bareStmts ((if ta = [] then [] else leading ta) ++ splitGap ta), bareStmts (splitGap tb), ?_⟩
  intro m tm hm hm0
  obtain ⟨t1, h1, h2, h3, -⟩ := hm.append hb
  obtain ⟨ts, h4, h5, h6, h7⟩ := ha.append h1
  have htm : tm ≠ [] := by rintro rfl; exact hm0 rfl
  have hlead : leading tm = [] := by
    have := split_leading tm
    rw [splitGap_of_stmt hm0] at this
    have := congrArg List.length this
    rw [List.length_append] at this
    exact List.eq_nil_of_length_eq_zero (by omega)
  rw [splitGap_of_stmt hm0] at h2
  refine ⟨ts, h4, ?_⟩
  rw [split_leading]
  have : leading ts = if ta = [] then [] else leading ta := by
    split
    · rename_i h; rw [h7 h, h3 htm, hlead]
    · rename_i h; exact h6 h
  rw [this]
  simp only [bareStmts, List.map_append] at h2 h5 ⊢
  rw [h5, h2]
  simp

/-- The exchange for statements. -/
theorem exchange_stmts {P M N Q : List (List Token)} {x y z : Block} (hM : NodesG M y) (hne : M ≠ []) (hN : NodesG N z)
    (hne' : N ≠ []) (h : parseStmts (.of (P ++ (M ++ Q))) = .ok x) (hx : errorFreeBlock x) :
    ∃ x', parseStmts (.of (P ++ (N ++ Q))) = .ok x' ∧ errorFreeBlock x' ∧
      ((x' = x ∧ [] ∈ P) ∨ Edited (Both y z) x x') := by
  have hp := parseStmts_post (.of (P ++ (M ++ Q)))
  rw [h] at hp
  obtain ⟨L, s', ⟨k, h1⟩, h2, h3⟩ := hp.2.2 hx
  rw [Stmts.all_of (by simp [hne])] at h1
  have hs : s'.all = [] :: s'.later := by rw [Stmts.all, h2]
  have hT : StopsAt s'.all := by rw [hs]; exact .empty
  have h1 : L ++ s'.all = P ++ (M ++ (Q ++ List.replicate k [])) := by rw [← h1]; simp
  rcases start_in h1 with hl | ⟨P', hP, h4⟩
  · obtain ⟨Q1, x', h5, h6, h7⟩ := h3.exchange hM hne hN hne' hT P _ h1 hl
    have := parseStmts_complete (s := .of (P ++ (N ++ Q))) h6 ⟨k, by
      rw [Stmts.all_of (by simp [hne'])]
      simp [h5]⟩ h2
    exact ⟨x', this, h6.errorFree, .inr h7⟩
  · cases P' with
    | nil => exact (hT.not hM hne h4).elim
    | cons c P' =>
      rw [hs] at h4
      have hc := (List.cons.inj h4).1
      subst hc
      have := parseStmts_complete (s := .of (P ++ (N ++ Q))) (s' := ⟨[], P' ++ (N ++ Q)⟩) h3 ⟨0, by
        rw [Stmts.all_of (by simp [hne'])]
        simp [Stmts.all, hP]⟩ rfl
      exact ⟨x, this, hx, .inl ⟨rfl, by rw [hP]; simp⟩⟩

theorem LinesOf.join {a b : Str} {ta tb : List Token} (ha : LinesOf a ta) (hb : LinesOf b tb) :
    ∃ ts, LinesOf (a ++ '\n' :: b) ts ∧ bareStmts (splitGap ts) = bareStmts (splitGap ta) ++ bareStmts (splitGap tb) ∧
      (ta ≠ [] → leading ts = leading ta) := by
  obtain ⟨ts, h1, h2, h3, -⟩ := ha.append hb.1
  refine ⟨ts, ⟨by simpa using h1, ?_⟩, h2, h3⟩
  have h4 := C54_lines (b := b ++ ['\n']) ha.1 ha.2.1
  rw [h1, hb.1] at h4
  simp only [joinLines] at h4
  have h4 := Except.ok.inj (Out.ok.inj h4)
  subst h4
  constructor
  · intro t ht
    have e : utf8Len (a ++ '\n' :: b) = utf8Len a + 1 + utf8Len b := by
      have h1 : '\n'.utf8Size = 1 := by decide
      simp [utf8Len, h1]
      omega
    rw [e]
    rcases List.mem_append.1 ht with ht | ht
    · have := ha.2.1 t ht
      omega
    · obtain ⟨u, hu, rfl⟩ := List.mem_map.1 ht
      have := hb.2.1 u hu
      show u.range.stop.bytes + (utf8Len a + 1) ≤ _
      omega
  · rw [List.getLast?_append, List.getLast?_map]
    cases hl : tb.getLast? with
    | none => simpa using ha.2.2
    | some t =>
      have := hb.2.2
      rw [hl] at this
      simpa [Token.shift] using this

/-- Two programs without errors one after the other. -/
theorem BodyText.join {p q : Str} {x y : Block} (hp : BodyText p x) (hq : BodyText q y) :
    ∃ z, BodyText (p ++ '\n' :: q) z ∧ mapBlock Token.unplaced z = mapBlock Token.unplaced (x ++ y) := by
  obtain ⟨tp, p1, p2, p3, p4⟩ := hp.bare
  obtain ⟨tq, q1, q2, q3, q4⟩ := hq.bare
  obtain ⟨ts, h1, h2, h3⟩ := p1.join q1
  have htp : tp ≠ [] := by rintro rfl; exact p2 rfl
  have hl : leading tp = [] := by
    have := split_leading tp
    rw [← splitGap_of_stmt p2] at this
    have := congrArg List.length this
    rw [List.length_append] at this
    exact List.eq_nil_of_length_eq_zero (by omega)
  rw [splitGap_of_stmt p2, splitGap_of_stmt q2] at h2
  have h4 : (split ts).all = splitGap ts := by rw [split_leading, h3 htp, hl]; rfl
  rw [← h4] at h2
  have hne : bareStmts (split ts).all ≠ [] := by simp [bareStmts, Stmts.all]
  have h5 := p4.append q4
  rw [← h2] at h5
  have h6 := parseStmts_complete (s := .of (bareStmts (split ts).all)) (s' := ⟨[], []⟩) (h5.blockG hne) ⟨1, by
    rw [Stmts.all_of hne]
    rfl⟩ rfl
  rw [← parse_bare] at h6
  obtain ⟨z, z1, z2⟩ := mapOutcome_eq_ok h6
  rw [← mapBlock_append] at z2
  refine ⟨z, ⟨ts, h1, ?_, z1, ?_, ?_⟩, z2⟩
  · intro h
    have : [] ∈ bareStmts (split ts).all := List.mem_map.2 ⟨_, h, rfl⟩
    rw [h2] at this
    exact (List.mem_append.1 this).elim p3 q3
  · rw [← errorFree_bare Token.unplaced, z2, errorFree_bare, errorFreeBlock_errors, errorsBlock_append]
    obtain ⟨_, -, -, -, hx, -⟩ := hp
    obtain ⟨_, -, -, -, hy, -⟩ := hq
    rw [(errorFreeBlock_errors _).1 hx, (errorFreeBlock_errors _).1 hy]
    rfl
  · intro n hn
    have h7 := congrArg List.getLast? z2
    rw [mapBlock_getLast?, mapBlock_getLast?, hn, List.getLast?_append] at h7
    rw [← Node.takesNext_map Token.unplaced]
    obtain ⟨_, -, -, -, -, hx⟩ := hp
    obtain ⟨_, -, -, -, -, hy⟩ := hq
    cases hl : List.getLast? y with
    | some m =>
      rw [hl] at h7
      rw [Option.some.inj h7, Node.takesNext_map]
      exact hy m hl
    | none =>
      rw [hl] at h7
      cases hl' : List.getLast? x with
      | some m =>
        rw [hl'] at h7
        rw [Option.some.inj h7, Node.takesNext_map]
        exact hx m hl'
      | none =>
        rw [hl'] at h7
        cases h7

/-! ## C103 -/

/-- The nodes `y` in one tree and `z` in the other, without positions. -/
def InPlace (y z u u' : Block) : Prop := u = mapBlock Token.unplaced y ∧ u' = mapBlock Token.unplaced z

/-- What the theorems below have in common. -/
private theorem exchange_text {a b m m' : Str} {ta : List Token} {x y z : Block} (ha : LinesOf a ta) (hm : BodyText m y)
    (hm' : BodyText m' z) (h : tokenizeAndParse (a ++ '\n' :: (m ++ '\n' :: b)) = .ok (.ok x))
    (hx : errorFreeBlock x) :
    ∃ x', tokenizeAndParse (a ++ '\n' :: (m' ++ '\n' :: b)) = .ok (.ok x') ∧ errorFreeBlock x' ∧
      ((mapBlock Token.unplaced x' = mapBlock Token.unplaced x ∧
        ∃ ts, tokenize (a ++ '\n' :: (m ++ '\n' :: b)) = .ok (.ok ts) ∧ [] ∈ (split ts).all) ∨
      Edited (InPlace y z) (mapBlock Token.unplaced x) (mapBlock Token.unplaced x')) := by
  obtain ⟨tm, m1, m2, m3, m4⟩ := hm.bare
  obtain ⟨tm', n1, n2, n3, n4⟩ := hm'.bare
  have hb : ∃ tb, tokenize b = .ok (.ok tb) := by
    have e1 := C54_lines (b := m ++ '\n' :: b) ha.1 ha.2.1
    have e2 := C54_lines (b := b) m1.1 m1.2.1
    unfold tokenizeAndParse at h
    rw [e1, e2] at h
    rcases hbt : tokenize b with (e | us) | p | _
    · rw [hbt] at h; cases h
    · exact ⟨us, rfl⟩
    · rw [hbt] at h; cases h
    · rw [hbt] at h; cases h
  obtain ⟨tb, hb⟩ := hb
  obtain ⟨P, Q, hPQ⟩ := ha.with_body hb
  obtain ⟨ts, h1, h2⟩ := hPQ m tm m1 m2
  obtain ⟨ts', h1', h2'⟩ := hPQ m' tm' n1 n2
  have h3 := parse_bare ts
  rw [parse_of_tokenizeAndParse h1 h, h2] at h3
  obtain ⟨w, h4, h5, h6⟩ := exchange_stmts m4 (by simp [bareStmts, Stmts.all]) n4 (by simp [bareStmts, Stmts.all])
    h3.symm ((errorFree_bare _ _).2 hx)
  rw [← h2', ← parse_bare] at h4
  obtain ⟨x', h7, rfl⟩ := mapOutcome_eq_ok h4
  refine ⟨x', tokenizeAndParse_of h1' h7, (errorFree_bare _ _).1 h5, h6.imp (fun ⟨h8, h9⟩ => ⟨h8, ts, h1, ?_⟩) id⟩
  have : [] ∈ bareStmts (split ts).all := by rw [h2]; exact List.mem_append_left _ h9
  obtain ⟨c, hc, he⟩ := List.mem_map.1 this
  rwa [List.map_eq_nil_iff.1 he] at hc

/-- **C103** In a source without errors, a program that stands on its own lines anywhere, even in the body of a
construct, can be exchanged for any other one: the source has a tree without errors, and without positions it is the
same, or it differs exactly in the nodes of the program, at any depth. -/
theorem C103_exchange {a b m m' : Str} {ta : List Token} {x y z : Block} (ha : LinesOf a ta) (hm : BodyText m y)
    (hm' : BodyText m' z) (h : tokenizeAndParse (a ++ '\n' :: (m ++ '\n' :: b)) = .ok (.ok x))
    (hx : errorFreeBlock x) :
    ∃ x', tokenizeAndParse (a ++ '\n' :: (m' ++ '\n' :: b)) = .ok (.ok x') ∧ errorFreeBlock x' ∧
      (mapBlock Token.unplaced x' = mapBlock Token.unplaced x ∨
      Edited (InPlace y z) (mapBlock Token.unplaced x) (mapBlock Token.unplaced x')) := by
  obtain ⟨x', h1, h2, h3⟩ := exchange_text ha hm hm' h hx
  exact ⟨x', h1, h2, h3.imp_left And.left⟩

/-- **C103** If no statement of the source is empty, the trees differ in the nodes of the program. -/
theorem C103_there {a b m m' : Str} {ta ts : List Token} {x x' y z : Block} (ha : LinesOf a ta) (hm : BodyText m y)
    (hm' : BodyText m' z) (h : tokenizeAndParse (a ++ '\n' :: (m ++ '\n' :: b)) = .ok (.ok x))
    (hx : errorFreeBlock x) (h' : tokenizeAndParse (a ++ '\n' :: (m' ++ '\n' :: b)) = .ok (.ok x'))
    (ht : tokenize (a ++ '\n' :: (m ++ '\n' :: b)) = .ok (.ok ts)) (hs : [] ∉ (split ts).all) :
    Edited (InPlace y z) (mapBlock Token.unplaced x) (mapBlock Token.unplaced x') := by
  obtain ⟨x'', h1, -, h2⟩ := exchange_text ha hm hm' h hx
  rw [h'] at h1
  cases h1
  refine h2.resolve_left ?_
  rintro ⟨-, ts', h1, h2⟩
  rw [ht] at h1
  cases h1
  exact hs h2

/-- The source is a program without errors. -/
def Accepted (s : Str) : Prop := ∃ x, tokenizeAndParse s = .ok (.ok x) ∧ errorFreeBlock x

/-- **C103** So whether a source with a program in it has errors does not depend on the program. -/
theorem C103_iff {a b m m' : Str} {ta : List Token} {y z : Block} (ha : LinesOf a ta) (hm : BodyText m y)
    (hm' : BodyText m' z) :
    Accepted (a ++ '\n' :: (m ++ '\n' :: b)) ↔ Accepted (a ++ '\n' :: (m' ++ '\n' :: b)) := by
  constructor
  · rintro ⟨x, h, hx⟩
    obtain ⟨x', h1, h2, -⟩ := C103_exchange ha hm hm' h hx
    exact ⟨x', h1, h2⟩
  · rintro ⟨x, h, hx⟩
    obtain ⟨x', h1, h2, -⟩ := C103_exchange ha hm' hm h hx
    exact ⟨x', h1, h2⟩

/-- **C103** A program can be inserted before another one, or deleted there. -/
theorem C103_before {a b m l : Str} {ta : List Token} {y z : Block} (ha : LinesOf a ta) (hm : BodyText m y)
    (hl : BodyText l z) :
    Accepted (a ++ '\n' :: (m ++ '\n' :: (l ++ '\n' :: b))) ↔ Accepted (a ++ '\n' :: (l ++ '\n' :: b)) := by
  obtain ⟨w, hw, -⟩ := hm.join hl
  have := C103_iff (b := b) ha hw hl
  rwa [List.append_assoc, List.cons_append] at this

/-- **C103** A program can be inserted after another one, or deleted there. -/
theorem C103_after {a b m l : Str} {ta : List Token} {y z : Block} (ha : LinesOf a ta) (hm : BodyText m y)
    (hl : BodyText l z) :
    Accepted (a ++ '\n' :: (l ++ '\n' :: (m ++ '\n' :: b))) ↔ Accepted (a ++ '\n' :: (l ++ '\n' :: b)) := by
  obtain ⟨w, hw, -⟩ := hl.join hm
  have := C103_iff (b := b) ha hw hl
  rwa [List.append_assoc, List.cons_append] at this

/-- **C103** Two programs one after the other can be swapped. -/
theorem C103_swap {a b m l : Str} {ta : List Token} {y z : Block} (ha : LinesOf a ta) (hm : BodyText m y)
    (hl : BodyText l z) :
    Accepted (a ++ '\n' :: (m ++ '\n' :: (l ++ '\n' :: b))) ↔
      Accepted (a ++ '\n' :: (l ++ '\n' :: (m ++ '\n' :: b))) :=
  (C103_before ha hm hl).trans (C103_after ha hm hl).symm

/-- **C103** A program can be moved from before one program to before another one, whatever lies between them. -/
theorem C103_move {a c b m l l' : Str} {ta tc : List Token} {y z z' : Block} (ha : LinesOf a ta) (hc : LinesOf c tc)
    (hm : BodyText m y) (hl : BodyText l z) (hl' : BodyText l' z') :
    Accepted (a ++ '\n' :: (m ++ '\n' :: (l ++ '\n' :: (c ++ '\n' :: (l' ++ '\n' :: b))))) ↔
      Accepted (a ++ '\n' :: (l ++ '\n' :: (c ++ '\n' :: (m ++ '\n' :: (l' ++ '\n' :: b))))) := by
  obtain ⟨_, hl1, -⟩ := id hl
  obtain ⟨_, h1, -⟩ := hl1.join hc
  obtain ⟨_, h2, -⟩ := ha.join h1
  have h3 := C103_before (b := b) h2 hm hl'
  simp only [List.append_assoc, List.cons_append] at h3
  exact (C103_before ha hm hl).trans h3.symm

-- A loop in place of `GTFO` in the body of a loop.
example : (∃ ta, LinesOf chars!"IM IN YR l" ta) ∧ (∃ y, BodyText chars!"GTFO" y) ∧
    (∃ z, BodyText chars!"IM IN YR k\nx R 1\nIM OUTTA YR k" z) ∧
    (∃ x ts, tokenizeAndParse (chars!"IM IN YR l" ++ '\n' :: (chars!"GTFO" ++ '\n' :: chars!"IM OUTTA YR l")) =
        .ok (.ok x) ∧ errorFreeBlock x ∧
      tokenize (chars!"IM IN YR l" ++ '\n' :: (chars!"GTFO" ++ '\n' :: chars!"IM OUTTA YR l")) = .ok (.ok ts) ∧
      [] ∉ (split ts).all) ∧
    ∃ x', tokenizeAndParse (chars!"IM IN YR l" ++ '\n' :: (chars!"IM IN YR k\nx R 1\nIM OUTTA YR k" ++ '\n' ::
      chars!"IM OUTTA YR l")) = .ok (.ok x') := by
  refine ⟨⟨_, rfl, by decide +kernel⟩,
    ⟨_, _, ⟨rfl, by decide +kernel⟩, by decide +kernel, rfl, by simp [errorFreeBlock, Node.ErrorFree], ?_⟩,
    ⟨_, _, ⟨rfl, by decide +kernel⟩, by decide +kernel, rfl, by simp [errorFreeBlock, Node.ErrorFree], ?_⟩,
    ⟨_, _, rfl, by simp [errorFreeBlock, Node.ErrorFree], rfl, by decide +kernel⟩, _, rfl⟩
  all_goals
    intro n hn
    cases hn
    exact id

end Lol
