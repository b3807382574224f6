import Verif.Parser.NoiseLemmas

/-! # Retouching a program statement by statement: lemmas -/

namespace Lol

/-- The token is neither `AN` nor `MKAY` nor a value. -/
def Token.Rigid (t : Token) : Prop := ¬ t.Is .AN ∧ ¬ t.Is .MKAY ∧ ∀ v, t.tokenType ≠ .value v

/-- The change `f` of the statements fits the change `R` of the tree. -/
structure Fits (f : List Token → List Token) (R : Retouch) : Prop where
  simple : ∀ {ts node}, SimpleG [] ts node → SimpleG [] (f ts) (node.retouch R)
  hai : ∀ {t v}, Token.Is .HAI t → f (t :: v) = t :: R.version v
  loop : ∀ {t label ops op conds cond}, Token.Is .IM_IN_YR t → Token.IsIdent label → IterationG ops op →
    ConditionG conds cond → ∃ conds', f (t :: label :: (ops ++ conds)) = t :: label :: (ops ++ conds') ∧
      ConditionG conds' (cond.map (LoopCondition.retouch R))
  function : ∀ {t ps params} {i : Identifier}, Token.Is .HOW_IZ_I t → i.WF → ParamsG ps params →
    ∃ ps', f (t :: (i.toks ++ ps)) = t :: (i.toks ++ ps') ∧ ParamsG ps' params
  expr : ∀ {t} {e : Expr}, Token.Is .OMG t ∨ Token.Is .MEBBE t → e.WF → f (t :: e.toks) = t :: (R.expr e).toks ∧
    (R.expr e).WF
  keep : ∀ {st : List Token}, (∀ x ∈ st, x.Rigid) → f st = st

theorem Token.Is.not_value {t : Token} {k : Keyword} (h : t.Is k) (v : TokenValue) : t.tokenType ≠ .value v := by
  have h' : t.tokenType = .keyword k := h
  rw [h']
  simp

theorem Token.IsIdent.not_value {t : Token} (h : t.IsIdent) (v : TokenValue) : t.tokenType ≠ .value v := by
  obtain ⟨n, hn⟩ := h
  rw [hn]
  simp

theorem Token.Is.other {t : Token} {k : Keyword} (h : t.Is k) (h1 : k ≠ .AN := by decide)
    (h2 : k ≠ .MKAY := by decide) : t.Rigid := ⟨h.ne h1, h.ne h2, h.not_value⟩

theorem Token.IsQuestion.other {t : Token} (h : t.IsQuestion) : t.Rigid := by
  refine ⟨not_is_of h (by simp), not_is_of h (by simp), fun v => ?_⟩
  have h' : t.tokenType = .symbol ['?'] := h
  rw [h']
  simp

theorem Token.IsIdent.other {t : Token} (h : t.IsIdent) : t.Rigid := ⟨h.not_is _, h.not_is _, h.not_value⟩

theorem Identifier.WF.not_value {i : Identifier} (h : i.WF) : ∀ t ∈ i.toks, ∀ v, t.tokenType ≠ .value v := by
  intro t ht
  simp only [Identifier.toks, List.mem_append, Option.mem_toList, List.mem_singleton] at ht
  rcases ht with ht | rfl
  · exact (h.2 t ht).not_value
  · exact h.1.not_value

theorem VariableAccess.WF.not_value {v : VariableAccess} (h : v.WF) : ∀ t ∈ v.toks, ∀ x, t.tokenType ≠ .value x := by
  intro t ht
  simp only [VariableAccess.toks, List.mem_append, List.mem_flatMap] at ht
  rcases ht with ht | ⟨s, hs, ht⟩
  · exact h.1.not_value t ht
  · obtain ⟨h1, h2⟩ := h.2 s hs
    simp only [VariableAccessSlot.toks, List.mem_cons] at ht
    rcases ht with rfl | ht
    · intro x; rw [h1]; simp
    · exact h2.not_value t ht

section
variable {f : List Token → List Token} {R : Retouch}

theorem Fits.one (H : Fits f R) {t : Token} (h : t.Rigid) : f [t] = [t] :=
  H.keep (by simpa using h)

theorem Fits.two (H : Fits f R) {t u : Token} (h : t.Rigid) (h' : u.Rigid) :
    f [t, u] = [t, u] := H.keep (by simpa using ⟨h, h'⟩)

theorem Fits.nil (H : Fits f R) : f [] = [] := H.keep (by simp)

mutual

theorem NodeG.retouch (H : Fits f R) : {L : List (List Token)} → {node : Node} → NodeG L node →
    NodeG (L.map f) (node.retouch R)
  | _, _, .simple h => .simple (H.simple h)
  | _, _, .hai h => by
    rw [List.map_cons, List.map_cons, List.map_nil, H.hai h, H.nil]
    exact .hai h
  | _, _, .loop h1 h2 h3 h4 h5 h6 h7 => by
    have ih := BlockG.retouch H h5
    obtain ⟨conds', e1, e2⟩ := H.loop h1 h2 h3 h4
    rw [List.map_cons, List.map_append, List.map_cons, List.map_nil, e1, H.two h6.other h7.other]
    exact .loop h1 h2 h3 e2 ih h6 h7
  | _, _, .function h1 h2 h3 h4 h5 => by
    have ih := BlockG.retouch H h4
    obtain ⟨ps', e1, e2⟩ := H.function h1 h2 h3
    rw [List.map_cons, List.map_append, List.map_cons, List.map_cons, List.map_nil, e1, H.one h5.other, H.nil]
    exact .function h1 h2 e2 ih h5
  | _, _, .switch h1 h2 h3 h4 h5 => by
    have ih1 := OmgsG.retouch H h3
    have ih2 := OmgWtfG.retouch H h4
    simp only [List.map_cons, List.map_append, List.map_nil, H.two h1.other h2.other, H.one h5.other, H.nil]
    exact .switch h1 h2 ih1 ih2 h5
  | _, _, .conditional h1 h2 h3 h4 h5 h6 => by
    have ih1 := YaRlyG.retouch H h3
    have ih2 := MebbesG.retouch H h4
    have ih3 := NoWaiG.retouch H h5
    simp only [List.map_cons, List.map_append, List.map_nil, H.two h1.other h2.other, H.one h6.other]
    exact .conditional h1 h2 ih1 ih2 ih3 h6

theorem OmgsG.retouch (H : Fits f R) : {L : List (List Token)} → {omgs : List WtfOmg} → OmgsG L omgs →
    OmgsG (L.map f) (retouchOmgs R omgs)
  | _, _, .nil => .nil
  | _, _, .cons h1 h2 h3 h4 => by
    have ih1 := BlockG.retouch H h3
    have ih2 := OmgsG.retouch H h4
    obtain ⟨e1, e2⟩ := H.expr (.inl h1) h2
    rw [List.map_cons, List.map_append, e1]
    exact .cons h1 e2 ih1 ih2

theorem OmgWtfG.retouch (H : Fits f R) : {L : List (List Token)} → {o : Option WtfOmgWtf} → OmgWtfG L o →
    OmgWtfG (L.map f) (retouchOmgWtf R o)
  | _, _, .none => .none
  | _, _, .some h1 h2 => by
    have ih := BlockG.retouch H h2
    rw [List.map_cons, H.one h1.other]
    exact .some h1 ih

theorem YaRlyG.retouch (H : Fits f R) : {L : List (List Token)} → {o : Option YaRly} → YaRlyG L o →
    YaRlyG (L.map f) (retouchYaRly R o)
  | _, _, .none => .none
  | _, _, .some h1 h2 => by
    have ih := BlockG.retouch H h2
    rw [List.map_cons, H.one h1.other]
    exact .some h1 ih

theorem MebbesG.retouch (H : Fits f R) : {L : List (List Token)} → {ms : List Mebbe} → MebbesG L ms →
    MebbesG (L.map f) (retouchMebbes R ms)
  | _, _, .nil => .nil
  | _, _, .cons h1 h2 h3 h4 => by
    have ih1 := BlockG.retouch H h3
    have ih2 := MebbesG.retouch H h4
    obtain ⟨e1, e2⟩ := H.expr (.inr h1) h2
    rw [List.map_cons, List.map_append, e1]
    exact .cons h1 e2 ih1 ih2

theorem NoWaiG.retouch (H : Fits f R) : {L : List (List Token)} → {o : Option NoWai} → NoWaiG L o →
    NoWaiG (L.map f) (retouchNoWai R o)
  | _, _, .none => .none
  | _, _, .some h1 h2 => by
    have ih := BlockG.retouch H h2
    rw [List.map_cons, H.one h1.other]
    exact .some h1 ih

theorem BlockG.retouch (H : Fits f R) : {L : List (List Token)} → {nodes : List Node} → BlockG L nodes →
    BlockG (L.map f) (retouchBlock R nodes)
  | _, _, .nodes h1 h2 => by
    have ih1 := NodeG.retouch H h1
    have ih2 := NodesG.retouch H h2
    rw [List.map_append]
    exact .nodes ih1 ih2
  | _, _, .skip h => by
    have ih := NodesG.retouch H h
    rw [List.map_cons, H.nil]
    exact .skip ih

theorem NodesG.retouch (H : Fits f R) : {L : List (List Token)} → {nodes : List Node} → NodesG L nodes →
    NodesG (L.map f) (retouchBlock R nodes)
  | _, _, .nil => .nil
  | _, _, .cons h1 h2 => by
    have ih1 := NodeG.retouch H h1
    have ih2 := NodesG.retouch H h2
    rw [List.map_append]
    exact .cons ih1 ih2

end

end

/-! ## `AN` -/

section
variable {p : Token → Bool}

theorem begins_of_all {a b : List Token} (hne : a ≠ []) (ha : ∀ t ∈ a, ¬ t.Is .YR) : ¬ BeginsWithYr (a ++ b) := by
  cases a with
  | nil => exact absurd rfl hne
  | cons t a => rw [List.cons_append, begins_cons]; exact ha t (by simp)

theorem ArgsG.dropAn {rest : List Token} (hr1 : ¬ BeginsWithYr rest) (hr2 : NoSlot rest) {ts : List Token}
    {es : List Expr} (h : ArgsG rest ts es) : ∃ ts', Lol.dropAn p (ts ++ rest) = ts' ++ Lol.dropAn p rest ∧
      ArgsG rest ts' (es.map (Expr.dropAn p)) := by
  induction h with
  | nil => exact ⟨[], rfl, .nil⟩
  | @one yr e h1 h2 h3 =>
    refine ⟨yr :: (e.dropAn p).toks, ?_, .one h1 (.dropAn e h2) ?_⟩
    · rw [List.cons_append, dropAn_cons h1.ne, Expr.dropAn_toks e h2 rest (fun _ => hr1), List.cons_append]
    · exact ⟨fun ho => h3.1 (e.dropAn_open.1 ho), fun he => h3.2 (e.dropAn_ends.1 he)⟩
  | @cons yr e an ts es h1 h2 h3 h4 h5 ih =>
    obtain ⟨ts', e1, e2⟩ := ih
    have ho : ¬ (e.dropAn p).Open := fun ho => h3 (e.dropAn_open.1 ho)
    have hs : Lol.dropAn p (yr :: (e.toks ++ an :: ts) ++ rest) =
        yr :: ((e.dropAn p).toks ++ Lol.dropAn p (an :: (ts ++ rest))) := by
      rw [List.cons_append, dropAn_cons h1.ne, List.append_assoc,
        Expr.dropAn_toks e h2 _ (fun ho' => absurd ho' h3), List.cons_append]
    by_cases hk : p an = true ∧ ¬ BeginsWithYr (ts ++ rest)
    · have hts : ts = [] ∧ es = [] := by
        cases h5 with
        | nil => exact ⟨rfl, rfl⟩
        | one h => exact absurd (begins_cons.2 h) hk.2
        | cons h => exact absurd (begins_cons.2 h) hk.2
      obtain ⟨rfl, rfl⟩ := hts
      refine ⟨yr :: (e.dropAn p).toks, ?_, .one h1 (.dropAn e h2) ⟨fun h => absurd h ho, fun _ => hr2⟩⟩
      rw [hs, Lol.dropAn, if_pos ⟨h4, hk⟩]
      rfl
    · refine ⟨yr :: ((e.dropAn p).toks ++ an :: ts'), ?_, .cons h1 (.dropAn e h2) ho h4 e2⟩
      rw [hs, Lol.dropAn, if_neg (fun hc => hk hc.2), e1]
      simp

theorem ParamsG.dropAn {ts : List Token} {is : List Identifier} (h : ParamsG ts is) :
    ∃ ts', Lol.dropAn p ts = ts' ∧ ParamsG ts' is := by
  refine ⟨_, rfl, ?_⟩
  induction h with
  | nil => exact .nil
  | @one yr i h1 h2 =>
    rw [dropAn_cons h1.ne, dropAn_all h2.not_is]
    exact .one h1 h2
  | @cons yr i an ts is h1 h2 h3 h4 ih =>
    rw [dropAn_cons h1.ne, dropAn_keep h2.not_is]
    by_cases hk : p an = true ∧ ¬ BeginsWithYr ts
    · have hts : ts = [] ∧ is = [] := by
        cases h4 with
        | nil => exact ⟨rfl, rfl⟩
        | one h => exact absurd (begins_cons.2 h) hk.2
        | cons h => exact absurd (begins_cons.2 h) hk.2
      obtain ⟨rfl, rfl⟩ := hts
      rw [Lol.dropAn, if_pos ⟨h3, hk⟩]
      simpa [Lol.dropAn] using ParamsG.one h1 h2
    · rw [Lol.dropAn, if_neg (fun hc => hk hc.2)]
      exact .cons h1 h2 h3 ih

theorem FollowAll.dropAn {rest : List Token} (hr : rest = [] ∨ NoSlot rest) :
    (es : List Expr) → FollowAll es rest → FollowAll (es.map (Expr.dropAn p)) rest ∧
      (¬ BeginsWithYr rest → Lol.dropAn p (es.flatMap Expr.toks ++ rest) =
        (es.map (Expr.dropAn p)).flatMap Expr.toks ++ Lol.dropAn p rest)
  | [], _ => ⟨trivial, fun _ => rfl⟩
  | e :: es, h => by
    rw [FollowAll] at h
    obtain ⟨ih1, ih2⟩ := FollowAll.dropAn hr es h.2.2
    have hno : NoSlot ((es.map (Expr.dropAn p)).flatMap Expr.toks ++ rest) := by
      cases es with
      | nil =>
        rcases hr with rfl | hr
        · exact NoSlot.nil
        · exact hr
      | cons e' es =>
        have h4 := h.2.2
        rw [FollowAll] at h4
        simp only [List.map_cons, List.flatMap_cons, List.append_assoc]
        exact (Expr.WF.dropAn e' h4.1).noSlot _
    constructor
    · rw [List.map_cons, FollowAll]
      refine ⟨.dropAn e h.1, ⟨fun ho => ?_, fun _ => hno⟩, ih1⟩
      have h5 := h.2.1.1 (e.dropAn_open.1 ho)
      cases es with
      | nil => exact h5
      | cons e' es =>
        obtain ⟨t, ts, ht⟩ := e'.toks_ne
        simp [ht] at h5
    · intro hb
      rw [List.flatMap_cons, List.append_assoc, Expr.dropAn_toks e h.1, ih2 hb]
      · simp
      · intro ho
        rw [h.2.1.1 ho]
        exact not_begins_nil

theorem mem_other {st : List Token} (h : ∀ x ∈ st, x.Rigid) : ∀ t ∈ st, ¬ t.Is .AN :=
  fun t ht => (h t ht).1

theorem SimpleG.dropAn {ts : List Token} {node : Node} (h : SimpleG [] ts node) :
    SimpleG [] (Lol.dropAn p ts) (node.retouch (withoutAn p)) := by
  cases h with
  | declaration h1 h2 h3 =>
    rw [dropAn_cons h1.ne, dropAn_all h2.not_is]
    exact .declaration h1 h2 h3
  | @declarationType t i itz ty h1 h2 h3 h4 =>
    rw [dropAn_cons h1.ne, dropAn_keep h2.not_is, dropAn_cons h3.ne,
      dropAn_cons (h4.ne (by cases ty <;> simp [ASTType.keyword])), Lol.dropAn]
    exact .declarationType h1 h2 h3 h4
  | @declarationExpr t i itz e h1 h2 h3 h4 h5 h6 =>
    rw [dropAn_cons h1.ne, dropAn_keep h2.not_is, dropAn_cons h3.ne, Expr.dropAn_end h4]
    refine .declarationExpr h1 h2 h3 (.dropAn e h4) .nil ?_
    rintro ⟨u, hu, hn⟩
    exact h6 ⟨u, Expr.dropAn_value hu, hn⟩
  | @assignment v r e h1 h2 h3 h4 =>
    rw [dropAn_keep h1.not_is, dropAn_cons h2.ne, Expr.dropAn_end h3]
    exact .assignment h1 h2 (.dropAn e h3) .nil
  | @setSlot v g i itz e h1 h2 h3 h4 h5 h6 =>
    rw [dropAn_keep h1.not_is, dropAn_cons h2.ne, dropAn_keep h3.not_is, dropAn_cons h4.ne, Expr.dropAn_end h5]
    exact .setSlot h1 h2 h3 h4 (.dropAn e h5) .nil
  | access h1 h2 =>
    rw [dropAn_all h1.not_is]
    exact .access h1 h2
  | @expression e h1 h2 h3 =>
    rw [Expr.dropAn_end h1]
    exact .expression (.dropAn e h1) .nil (fun v hv => h3 v (Expr.dropAn_value hv))
  | @visible t es ex h1 h2 h3 h4 =>
    rw [List.append_nil] at h2
    have hx : ∀ x ∈ ex.toList, ¬ x.Is .AN := fun x hx => not_is_of (h3 x (by simpa using hx)) (by simp)
    have hb : ¬ BeginsWithYr ex.toList := by
      cases ex with
      | none => exact not_begins_nil
      | some x =>
        rw [show (some x).toList = [x] from rfl, begins_cons]
        exact not_is_of (h3 x rfl) (by simp)
    have hr : ex.toList = [] ∨ NoSlot ex.toList := by
      cases ex with
      | none => exact .inl rfl
      | some x => exact .inr (NoSlot.cons_iff.2 (by rw [h3 x rfl]; simp))
    obtain ⟨e1, e2⟩ := FollowAll.dropAn (p := p) hr es h2
    rw [dropAn_cons h1.ne, e2 hb, dropAn_all hx]
    exact .visible h1 (by rw [List.append_nil]; exact e1) h3 h4
  | gimmeh h1 h2 h3 =>
    rw [dropAn_cons h1.ne, dropAn_all h2.not_is]
    exact .gimmeh h1 h2 h3
  | @foundYr t e h1 h2 h3 =>
    rw [dropAn_cons h1.ne, Expr.dropAn_end h2]
    exact .foundYr h1 (.dropAn e h2) .nil
  | @call t v ts es mkay h1 h2 h3 h4 =>
    obtain ⟨ts', e1, e2⟩ := ArgsG.dropAn (p := p) (fun hb => absurd (begins_cons.1 hb) h4.ne) (NoSlot.keyword h4) h3
    rw [dropAn_cons h1.ne, dropAn_keep h2.not_is, e1, dropAn_cons h4.ne, Lol.dropAn]
    exact .call h1 h2 e2 h4
  | gtfo h1 => rw [dropAn_cons h1.ne]; exact .gtfo h1
  | kThxBye h1 => rw [dropAn_cons h1.ne]; exact .kThxBye h1

theorem LoopOperation.keyword_ne (op : LoopOperation) : op.keyword ≠ .AN ∧ op.keyword ≠ .MKAY := by
  cases op <;> simp [LoopOperation.keyword]

theorem IterationG.other {ops : List Token} {op : Option LoopIterationOperation} (h : IterationG ops op) :
    ∀ x ∈ ops, x.Rigid := by
  cases h with
  | none => simp
  | @some op yr v h1 h2 h3 =>
    intro x hx
    simp only [List.mem_cons] at hx
    rcases hx with rfl | rfl | hx
    · exact h1.other op.keyword_ne.1 op.keyword_ne.2
    · exact h2.other
    · exact ⟨h3.not_is (by decide) x hx, h3.not_is (by decide) x hx, h3.not_value x hx⟩

theorem fits_an (p : Token → Bool) : Fits (dropAn p) (withoutAn p) where
  simple := SimpleG.dropAn
  hai h := by rw [dropAn_cons h.ne]; rfl
  loop := by
    intro t label ops op conds cond h1 h2 h3 h4
    rw [dropAn_cons h1.ne, dropAn_cons (h2.not_is _), dropAn_keep (mem_other h3.other)]
    refine ⟨_, rfl, ?_⟩
    cases h4 with
    | none => exact .none
    | @til t e h1 h2 => rw [dropAn_cons h1.ne, Expr.dropAn_end h2]; exact .til h1 (.dropAn e h2)
    | @wile t e h1 h2 => rw [dropAn_cons h1.ne, Expr.dropAn_end h2]; exact .wile h1 (.dropAn e h2)
  function := by
    intro t ps params i h1 h2 h3
    obtain ⟨ps', e1, e2⟩ := ParamsG.dropAn (p := p) h3
    rw [dropAn_cons h1.ne, dropAn_keep h2.not_is, e1]
    exact ⟨ps', rfl, e2⟩
  expr := by
    intro t e h1 h2
    rw [dropAn_cons (by rcases h1 with h | h <;> exact h.ne), Expr.dropAn_end h2]
    exact ⟨rfl, .dropAn e h2⟩
  keep h := dropAn_all (mem_other h)

/-! ## `MKAY` -/

theorem dropMkayLast_spec : (es : List Expr) → FollowAll es [] → FollowAll (dropMkayLast p es) [] ∧
    (es ≠ [] → ∀ a, cutMkay p (a ++ es.flatMap Expr.toks) = a ++ (dropMkayLast p es).flatMap Expr.toks)
  | [], _ => ⟨trivial, fun h => absurd rfl h⟩
  | [e], h => by
    rw [FollowAll] at h
    obtain ⟨h1, h2⟩ := Expr.dropMkay_spec (p := p) e h.1
    rw [dropMkayLast]
    refine ⟨by rw [FollowAll]; exact ⟨h1, .nil, trivial⟩, fun _ a => ?_⟩
    simpa using h2 a
  | e :: e' :: es, h => by
    rw [FollowAll] at h
    obtain ⟨h1, h2⟩ := dropMkayLast_spec (e' :: es) h.2.2
    rw [dropMkayLast]
    constructor
    · rw [FollowAll]
      refine ⟨h.1, ⟨fun ho => ?_, fun _ => ?_⟩, h1⟩
      · have h5 := h.2.1.1 ho
        obtain ⟨t, ts, ht⟩ := e'.toks_ne
        simp [ht] at h5
      · cases es with
        | nil =>
          rw [dropMkayLast, FollowAll] at h1
          simp only [dropMkayLast, List.flatMap_cons, List.append_assoc]
          exact h1.1.noSlot _
        | cons e'' es =>
          have h4 := h.2.2
          rw [FollowAll] at h4
          simp only [dropMkayLast, List.flatMap_cons, List.append_assoc]
          exact h4.1.noSlot _
    · intro _ a
      have := h2 (by simp) (a ++ e.toks)
      rw [List.flatMap_cons, List.flatMap_cons]
      simpa using this

theorem dropMkay_expr {t : Token} {a : List Token} {e : Expr} (h1 : ¬ t.Is .I_IZ) (h2 : ¬ t.Is .HAI) (he : e.WF) :
    dropMkay p (t :: (a ++ e.toks)) = t :: (a ++ (e.dropMkay p).toks) := by
  rw [dropMkay_cons h1 h2]
  exact (Expr.dropMkay_spec e he).2 (t :: a)

theorem dropMkay_all {st : List Token} (h : ∀ x ∈ st, ¬ x.Is .MKAY) : dropMkay p st = st :=
  dropMkay_keep fun t ht => h t (List.mem_of_getLast? ht)

theorem dropMkay_end {a b : List Token} (hb : b ≠ []) (h : ∀ x ∈ b, ¬ x.Is .MKAY) : dropMkay p (a ++ b) = a ++ b := by
  refine dropMkay_keep fun t ht => h t ?_
  obtain ⟨b', m, rfl⟩ : ∃ b' m, b = b' ++ [m] := ⟨_, _, (List.dropLast_concat_getLast hb).symm⟩
  rw [← List.append_assoc] at ht
  simp only [List.getLast?_append, List.getLast?_singleton, Option.some_or, Option.some.injEq] at ht
  rw [← ht]
  simp

theorem VariableAccess.toks_head (v : VariableAccess) : ∃ t ts, v.toks = t :: ts := by
  have : v.toks ≠ [] := by simp [VariableAccess.toks, Identifier.toks]
  exact List.exists_cons_of_ne_nil this

theorem dropMkay_access {v : VariableAccess} {a : List Token} {e : Expr} (hv : v.WF) (he : e.WF) :
    dropMkay p (v.toks ++ (a ++ e.toks)) = v.toks ++ (a ++ (e.dropMkay p).toks) := by
  obtain ⟨t, ts, ht⟩ := v.toks_head
  have h1 := hv.not_is (k := .I_IZ) (by decide) t (by rw [ht]; simp)
  have h2 := hv.not_is (k := .HAI) (by decide) t (by rw [ht]; simp)
  have := dropMkay_expr (p := p) (a := ts ++ a) h1 h2 he
  rw [ht]
  simpa using this

theorem Expr.head_not {e : Expr} (h : e.WF) {t : Token} {ts : List Token} (ht : e.toks = t :: ts) :
    ¬ t.Is .I_IZ ∧ ¬ t.Is .HAI := by
  cases e with
  | value v =>
    cases v with
    | variableAccess v =>
      rw [Expr.WF] at h
      rw [Expr.toks, ExprValue.toks] at ht
      exact ⟨h.not_is (by decide) t (by rw [ht]; simp), h.not_is (by decide) t (by rw [ht]; simp)⟩
    | literal l =>
      rw [Expr.WF] at h
      rw [Expr.toks, ExprValue.toks] at ht
      cases ht
      exact ⟨h.not_is, h.not_is⟩
  | unary op e =>
    rw [Expr.WF] at h
    rw [Expr.toks] at ht
    cases ht
    exact ⟨h.1.ne (by cases op <;> simp [UnaryOpt.keyword]), h.1.ne (by cases op <;> simp [UnaryOpt.keyword])⟩
  | binary op l an r =>
    rw [Expr.WF] at h
    rw [Expr.toks] at ht
    cases ht
    exact ⟨h.1.ne (by cases op <;> simp [BinaryOpt.keyword]), h.1.ne (by cases op <;> simp [BinaryOpt.keyword])⟩
  | nary op es mkay =>
    rw [Expr.WF] at h
    rw [Expr.toks] at ht
    cases ht
    exact ⟨h.1.ne (by cases op <;> simp [NaryOpt.keyword]), h.1.ne (by cases op <;> simp [NaryOpt.keyword])⟩

theorem SimpleG.dropMkay {ts : List Token} {node : Node} (h : SimpleG [] ts node) :
    SimpleG [] (Lol.dropMkay p ts) (node.retouch (withoutMkay p)) := by
  cases h with
  | declaration h1 h2 h3 =>
    rw [dropMkay_all]
    · exact .declaration h1 h2 h3
    · intro x hx
      rcases List.mem_cons.1 hx with rfl | hx
      · exact h1.ne
      · exact h2.not_is (by decide) x hx
  | @declarationType t i itz ty h1 h2 h3 h4 =>
    rw [dropMkay_all]
    · exact .declarationType h1 h2 h3 h4
    · intro x hx
      simp only [List.mem_cons, List.mem_append, List.not_mem_nil, or_false] at hx
      rcases hx with rfl | hx | rfl | rfl
      · exact h1.ne
      · exact h2.not_is (by decide) x hx
      · exact h3.ne
      · exact h4.ne (by cases ty <;> simp [ASTType.keyword])
  | @declarationExpr t i itz e h1 h2 h3 h4 h5 h6 =>
    have := dropMkay_expr (p := p) (a := i.toks ++ [itz]) (e := e) h1.ne h1.ne h4
    simp only [List.append_assoc, List.cons_append, List.nil_append] at this
    rw [this]
    refine .declarationExpr h1 h2 h3 (Expr.dropMkay_spec e h4).1 .nil ?_
    rintro ⟨u, hu, hn⟩
    exact h6 ⟨u, Expr.dropMkay_value hu, hn⟩
  | @assignment v r e h1 h2 h3 h4 =>
    have := dropMkay_access (p := p) (a := [r]) h1 h3
    rw [show r :: e.toks = [r] ++ e.toks from rfl, this]
    exact .assignment h1 h2 (Expr.dropMkay_spec e h3).1 .nil
  | @setSlot v g i itz e h1 h2 h3 h4 h5 h6 =>
    have := dropMkay_access (p := p) (a := g :: (i.toks ++ [itz])) h1 h5
    simp only [List.append_assoc, List.cons_append, List.nil_append] at this
    rw [this]
    exact .setSlot h1 h2 h3 h4 (Expr.dropMkay_spec e h5).1 .nil
  | access h1 h2 =>
    rw [dropMkay_all h1.not_is]
    exact .access h1 h2
  | @expression e h1 h2 h3 =>
    obtain ⟨t, ts, ht⟩ := e.toks_ne
    obtain ⟨n1, n2⟩ := Expr.head_not h1 ht
    have h5 := (Expr.dropMkay_spec (p := p) e h1).2 []
    simp only [List.nil_append] at h5
    rw [show Lol.dropMkay p e.toks = (e.dropMkay p).toks by rw [← h5, ht, dropMkay_cons n1 n2]]
    exact .expression (Expr.dropMkay_spec e h1).1 .nil (fun v hv => h3 v (Expr.dropMkay_value hv))
  | @visible t es ex h1 h2 h3 h4 =>
    rw [List.append_nil] at h2
    cases ex with
    | some x =>
      rw [show t :: (es.flatMap Expr.toks ++ (some x).toList) = (t :: es.flatMap Expr.toks) ++ [x] from rfl,
        dropMkay_end (by simp) (by simpa using not_is_of (h3 x rfl) (by simp))]
      exact .visible h1 (by rw [List.append_nil]; exact h2) h3 h4
    | none =>
      obtain ⟨e1, e2⟩ := dropMkayLast_spec (p := p) es h2
      have : Lol.dropMkay p (t :: (es.flatMap Expr.toks ++ (none : Option Token).toList)) =
          t :: ((dropMkayLast p es).flatMap Expr.toks ++ (none : Option Token).toList) := by
        simp only [Option.toList, List.append_nil]
        cases es with
        | nil => exact dropMkay_all (by simpa using h1.ne)
        | cons e es =>
          rw [dropMkay_cons h1.ne h1.ne]
          exact e2 (by simp) [t]
      rw [this]
      exact .visible h1 e1 h3 h4
  | gimmeh h1 h2 h3 =>
    rw [dropMkay_all]
    · exact .gimmeh h1 h2 h3
    · intro x hx
      rcases List.mem_cons.1 hx with rfl | hx
      · exact h1.ne
      · exact h2.not_is (by decide) x hx
  | @foundYr t e h1 h2 h3 =>
    have := dropMkay_expr (p := p) (a := []) (e := e) h1.ne h1.ne h2
    simp only [List.nil_append] at this
    rw [this]
    exact .foundYr h1 (Expr.dropMkay_spec e h2).1 .nil
  | @call t v ts es mkay h1 h2 h3 h4 =>
    rw [dropMkay_head (.inl h1)]
    exact .call h1 h2 h3 h4
  | gtfo h1 => rw [dropMkay_all (by simpa using h1.ne)]; exact .gtfo h1
  | kThxBye h1 => rw [dropMkay_all (by simpa using h1.ne)]; exact .kThxBye h1

theorem ParamsG.no_mkay {ts : List Token} {is : List Identifier} (h : ParamsG ts is) : ∀ x ∈ ts, ¬ x.Is .MKAY := by
  induction h with
  | nil => simp
  | one h1 h2 =>
    intro x hx
    rcases List.mem_cons.1 hx with rfl | hx
    · exact h1.ne
    · exact h2.not_is (by decide) x hx
  | cons h1 h2 h3 _ ih =>
    intro x hx
    simp only [List.mem_cons, List.mem_append] at hx
    rcases hx with rfl | hx | rfl | hx
    · exact h1.ne
    · exact h2.not_is (by decide) x hx
    · exact h3.ne
    · exact ih x hx

theorem fits_mkay (p : Token → Bool) : Fits (dropMkay p) (withoutMkay p) where
  simple := SimpleG.dropMkay
  hai h := dropMkay_head (.inr h)
  loop := by
    intro t label ops op conds cond h1 h2 h3 h4
    have hcond : ∀ {c : Token} {e : Expr}, e.WF → dropMkay p (t :: label :: (ops ++ c :: e.toks)) =
        t :: label :: (ops ++ c :: (e.dropMkay p).toks) := by
      intro c e he
      have := dropMkay_expr (p := p) (a := label :: (ops ++ [c])) (e := e) h1.ne h1.ne he
      simpa using this
    cases h4 with
    | none =>
      refine ⟨[], ?_, .none⟩
      rw [dropMkay_all]
      intro x hx
      simp only [List.mem_cons, List.append_nil] at hx
      rcases hx with rfl | rfl | hx
      · exact h1.ne
      · exact h2.not_is _
      · exact (h3.other x hx).2.1
    | @til c e g1 g2 => exact ⟨_, hcond g2, .til g1 (Expr.dropMkay_spec e g2).1⟩
    | @wile c e g1 g2 => exact ⟨_, hcond g2, .wile g1 (Expr.dropMkay_spec e g2).1⟩
  function := by
    intro t ps params i h1 h2 h3
    refine ⟨ps, dropMkay_all ?_, h3⟩
    intro x hx
    simp only [List.mem_cons, List.mem_append] at hx
    rcases hx with rfl | hx | hx
    · exact h1.ne
    · exact h2.not_is (by decide) x hx
    · exact h3.no_mkay x hx
  expr := by
    intro t e h1 h2
    have := dropMkay_expr (p := p) (t := t) (a := []) (e := e) (by rcases h1 with h | h <;> exact h.ne)
      (by rcases h1 with h | h <;> exact h.ne) h2
    simp only [List.nil_append] at this
    exact ⟨this, (Expr.dropMkay_spec e h2).1⟩
  keep h := dropMkay_all fun x hx => (h x hx).2.1

end

end Lol
