import Verif.Parser.ReadLemmas

/-! # Reading a program, errors included: soundness -/

namespace Lol

/-- The outcome satisfies `R`, unless the fuel runs out. -/
def RPost {α : Type} (R : Read α → Prop) : Res Stmts α → Prop
  | .ok a s => R (.ok a s)
  | .err e s => R (.error e s)
  | .panic p => R (.panic p)
  | .outOfFuel => True

theorem RPost.mono {α : Type} {P R : Read α → Prop} {r : Res Stmts α} (h : RPost P r) (h' : ∀ x, P x → R x) :
    RPost R r := by
  cases r with
  | outOfFuel => trivial
  | _ => exact h' _ h

theorem RPost.bind {α β : Type} {P : Read α → Prop} {R : Read β → Prop} {p : Prog α} {f : α → Prog β} {s : Stmts}
    (h : RPost P (exec p s)) (hf : ∀ (f : Fail) s', P (f.read s') → R (f.read s'))
    (hok : ∀ a s', P (.ok a s') → RPost R (exec (f a) s')) : RPost R (exec (p >>= f) s) := by
  rw [exec_bind]
  cases hp : exec p s with
  | ok a s' => rw [hp] at h; exact hok a s' h
  | err e s' => rw [hp] at h; exact hf (.error e) s' h
  | panic p => rw [hp] at h; exact hf (.panic p) s h
  | outOfFuel => trivial

theorem RPost.map {α β : Type} {P : Read α → Prop} {R : Read β → Prop} {p : Prog α} {g : α → β} {s : Stmts}
    (h : RPost P (exec p s)) (h' : ∀ r, P r → R (r.map g)) :
    RPost R (exec (p >>= fun a => Pure.pure (g a)) s) := by
  refine h.bind ?_ ?_
  · rintro (e | p) s' h
    · exact h' _ h
    · exact h' _ h
  · intro a s' h
    exact h' _ h

theorem RPost.bindL {α β : Type} {cur : List Token} {later : List (List Token)}
    {Q : α → List Token → List Token → Prop} {E : Fail → List Token → List Token → Prop} {R : Read β → Prop}
    {p : Prog α} {f : α → Prog β} (h : LPost cur later Q E (exec p ⟨cur, later⟩))
    (hf : ∀ f used rest, cur = used ++ rest → E f used rest → R (f.read ⟨rest, later⟩))
    (hok : ∀ a used rest, cur = used ++ rest → Q a used rest → RPost R (exec (f a) ⟨rest, later⟩)) :
    RPost R (exec (p >>= f) ⟨cur, later⟩) := by
  obtain ⟨h1, h2⟩ := h
  rw [exec_bind]
  cases hp : exec p ⟨cur, later⟩ with
  | ok a s' =>
    rw [hp] at h1
    obtain ⟨u, c, rfl, h3, h4⟩ := h1
    exact hok a u c h3 h4
  | err e s' =>
    rw [hp] at h2
    obtain ⟨u, c, rfl, h3, h4⟩ := h2
    exact hf (.error e) u c h3 h4
  | panic p =>
    rw [hp] at h2
    obtain ⟨u, c, h3, h4⟩ := h2
    exact hf (.panic p) u c h3 h4
  | outOfFuel => trivial

theorem RPost.next {β : Type} {cur : List Token} {later : List (List Token)} {R : Read β → Prop}
    {f : Option Token → Prog β} (h1 : cur = [] → RPost R (exec (f none) ⟨[], later⟩))
    (h2 : ∀ t r, cur = t :: r → RPost R (exec (f (some t)) ⟨r, later⟩)) :
    RPost R (exec (Lol.next >>= f) ⟨cur, later⟩) := by
  cases cur with
  | nil => simpa using h1 rfl
  | cons t r => simpa using h2 t r rfl

theorem RPost.nextIf {β : Type} {s : Stmts} {R : Read β → Prop} {k : Keyword}
    {f : Option Token → Prog β} (h1 : NotFirst k s.cur → RPost R (exec (f none) s))
    (h2 : ∀ t r, s.cur = t :: r → t.Is k → RPost R (exec (f (some t)) ⟨r, s.later⟩)) :
    RPost R (exec (Lol.nextIf (Token.isKeyword k) >>= f) s) := by
  obtain ⟨cur, later⟩ := s
  cases cur with
  | nil => simpa using h1 (by intro t r h; cases h)
  | cons t r =>
    rw [exec_bind, exec_nextIf_cons]
    cases h : t.isKeyword k with
    | true => exact h2 t r rfl (Token.isKeyword_iff.1 h)
    | false =>
      refine h1 ?_
      rintro _ _ ⟨⟩ hk
      rw [isKeyword_true hk] at h
      cases h

theorem RPost.nextIfEq {β : Type} {s : Stmts} {R : Read β → Prop} {k : Keyword}
    {f : Option Token → Prog β} (h1 : NotFirst k s.cur → RPost R (exec (f none) s))
    (h2 : ∀ t r, s.cur = t :: r → t.Is k → RPost R (exec (f (some t)) ⟨r, s.later⟩)) :
    RPost R (exec (nextIfTokenTypeEq (.keyword k) >>= f) s) := by
  obtain ⟨cur, later⟩ := s
  cases cur with
  | nil => simpa using h1 (by intro t r h; cases h)
  | cons t r =>
    rw [exec_bind, exec_nextIfTokenTypeEq_cons]
    split
    · rename_i h
      exact h2 t r rfl h
    · rename_i h
      refine h1 ?_
      rintro _ _ ⟨⟩ hk
      exact h hk

theorem RPost.empty {β : Type} {cur : List Token} {later : List (List Token)} {R : Read β → Prop}
    {f : Unit → Prog β} (h1 : cur ≠ [] → R (.error (.tooManyTokens cur) (.of later)))
    (h2 : cur = [] → RPost R (exec (f ()) (.of later))) :
    RPost R (exec (nextStatementShouldBeEmpty >>= f) ⟨cur, later⟩) := by
  rw [exec_bind, exec_nextStatementShouldBeEmpty]
  split
  · rename_i h
    have := h2 h
    simpa [Stmts.advance_of] using this
  · rename_i h
    have := h1 h
    simpa [Stmts.advance_of, RPost] using this

/-- The predicate recognises the keywords. -/
def Recognises (stop : Token → Bool) (close : List Keyword) : Prop :=
  ∀ t, stop t = true ↔ ∃ k ∈ close, t.Is k

theorem recognises_root : Recognises stopRoot [] := by simp [Recognises, stopRoot]
theorem recognises_loop : Recognises stopLoop closeLoop := by
  simp [Recognises, stopLoop, closeLoop, Token.isKeyword_iff]
theorem recognises_function : Recognises stopFunction closeFunction := by
  simp [Recognises, stopFunction, closeFunction, Token.isKeyword_iff]
theorem recognises_switch : Recognises stopSwitch closeSwitch := by
  simp [Recognises, stopSwitch, closeSwitch, Token.isKeyword_iff, or_assoc]
theorem recognises_if : Recognises stopIf closeIf := by
  simp [Recognises, stopIf, closeIf, Token.isKeyword_iff, or_assoc]

theorem BlockR.stop {close : List Keyword} {s : Stmts} {r : Read Block} :
    BlockR close s r → ∀ nodes s', r = .ok nodes s' → Stop close s'
  | .last _ h => by rintro _ _ ⟨⟩; exact h
  | .more (r := r) _ _ h => by
    have ih := h.stop
    intro nodes s' he
    cases r with
    | ok a s1 => cases he; exact ih _ _ rfl
    | error => cases he
    | panic => cases he
  | .panic _ => by rintro _ _ ⟨⟩

theorem BlockR.noError {close : List Keyword} {s : Stmts} {r : Read Block} :
    BlockR close s r → ∀ e s', r ≠ .error e s'
  | .last _ h => by rintro _ _ ⟨⟩
  | .more (r := r) _ _ h => by
    have ih := h.noError
    intro e s' he
    cases r with
    | ok a s1 => cases he
    | error => exact ih _ _ rfl
    | panic => cases he
  | .panic _ => by rintro _ _ ⟨⟩

/-- What is known of the block parser. -/
def BlockS (block : (Token → Bool) → Prog Block) : Prop :=
  ∀ stop close s, Recognises stop close → RPost (BlockR close s) (exec (block stop) s)

/-- Running a block. -/
theorem RPost.block {β : Type} {block : (Token → Bool) → Prog Block} (hb : BlockS block) {stop : Token → Bool}
    {close : List Keyword} (hs : Recognises stop close) {s : Stmts} {R : Read β → Prop} {f : Block → Prog β}
    (h1 : ∀ p, BlockR close s (.panic p) → R (.panic p))
    (h2 : ∀ nodes cur later, BlockR close s (.ok nodes ⟨cur, later⟩) → RPost R (exec (f nodes) ⟨cur, later⟩)) :
    RPost R (exec (block stop >>= f) s) := by
  refine RPost.bind (hb stop close s hs) ?_ fun nodes s' h => h2 nodes s'.cur s'.later h
  rintro (e | p) s' h
  · exact absurd rfl (h.noError e s')
  · exact h1 p h

section
variable {block : (Token → Bool) → Prog Block} (hb : BlockS block)
include hb

theorem parseImInYr_read (n : Nat) {first : Token} (hk : first.Is .IM_IN_YR) (cur : List Token)
    (later : List (List Token)) :
    RPost (NodeR ⟨first :: cur, later⟩) (exec (parseImInYr block n first) ⟨cur, later⟩) := by
  unfold parseImInYr
  refine .next ?_ ?_
  · rintro rfl
    exact NodeR.headFail (.labelEnd hk rfl)
  · rintro label r rfl
    dsimp only
    split
    · rename_i hl
      rw [Token.isIdentifier_iff] at hl
      refine .bindL (parseIterationOperation_read n r later) ?_ ?_
      · rintro f used rest rfl h
        exact NodeR.headFail (.iteration hk hl h)
      · rintro op ops rest rfl h1
        refine .bindL (parseConditional_read n rest later) ?_ ?_
        · rintro f used rest rfl h
          have := NodeR.headFail (later := later) (HeadFail.condition hk hl h1 h)
          simpa using this
        · rintro cond conds rest rfl h2
          have hhead := HeadR.loop hk hl h1 h2
          refine .empty ?_ ?_
          · intro hne
            have := NodeR.headLeft (later := later) hhead hne
            simpa using this
          · rintro rfl
            simp only [List.append_nil]
            refine .block hb recognises_loop (fun p h => .loopPanic hhead h) ?_
            intro body c l hbody
            refine .next ?_ ?_
            · rintro rfl
              exact NodeR.loopEnd hhead hbody
            · rintro c r rfl
              refine .next ?_ ?_
              · rintro rfl
                exact NodeR.loopLabelEnd hhead hbody
              · rintro u r rfl
                dsimp only
                split
                · rename_i hu
                  rw [Token.isIdentifier_iff] at hu
                  exact NodeR.loop hhead hbody hu
                · rename_i hu
                  rw [Token.isIdentifier_iff] at hu
                  exact NodeR.loopLabel hhead hbody hu
    · rename_i hl
      rw [Token.isIdentifier_iff] at hl
      exact NodeR.headFail (rest := r) (ts := [first, label]) (.label hk hl)

theorem parseHowIzI_read (n : Nat) {first : Token} (hk : first.Is .HOW_IZ_I) (cur : List Token)
    (later : List (List Token)) :
    RPost (NodeR ⟨first :: cur, later⟩) (exec (parseHowIzI block n first) ⟨cur, later⟩) := by
  unfold parseHowIzI
  refine .next ?_ ?_
  · rintro rfl
    exact NodeR.headFail (.nameEnd hk rfl)
  · rintro u r rfl
    refine .bindL (Identifier.parse_lpost r later u) ?_ ?_
    · rintro f used rest rfl h
      exact NodeR.headFail (.name hk h)
    · rintro i used rest rfl ⟨h1, h2⟩
      refine .bindL (parseParameters_read n rest later) ?_ ?_
      · rintro f used' rest rfl h
        have := NodeR.headFail (later := later) (HeadFail.params hk h2 h)
        simpa [← h1] using this
      · rintro params ps rest rfl h3
        have hhead := HeadR.function hk h2 h3
        refine .empty ?_ ?_
        · intro hne
          have := NodeR.headLeft (later := later) hhead hne
          simpa [← h1] using this
        · rintro rfl
          rw [← h1] at hhead
          simp only [List.append_nil]
          simp only [List.cons_append] at hhead
          refine .block hb recognises_function (fun p h => .functionPanic hhead h) ?_
          intro body c l hbody
          refine .next ?_ ?_
          · rintro rfl
            exact NodeR.functionEnd hhead hbody
          · rintro c r rfl
            have hc : c.isKeyword .IF_U_SAY_SO = true := by
              rcases hbody.stop _ _ rfl with h | ⟨t, r, h, k, hk, ht⟩
              · cases h
              · cases h
                simp only [closeFunction, List.mem_singleton] at hk
                subst hk
                exact isKeyword_true ht
            dsimp only
            rw [if_pos hc]
            refine .empty ?_ ?_
            · exact NodeR.functionLeft hhead hbody
            · rintro rfl
              exact NodeR.function hhead hbody

theorem parseOmgs_read (n m : Nat) (s : Stmts) : RPost (OmgsR s) (exec (parseOmgs block n m) s) := by
  induction m generalizing s with
  | zero => trivial
  | succ m ih =>
    unfold parseOmgs
    refine .nextIf (fun h => OmgsR.nil h) ?_
    obtain ⟨cur, l⟩ := s
    rintro t r hcur ht
    dsimp only at hcur ⊢
    subst hcur
    refine .next ?_ ?_
    · rintro rfl
      exact OmgsR.valueEnd ht
    · rintro u r rfl
      refine .bindL (parseExpr_lpost n r l u) ?_ ?_
      · rintro f used rest rfl h
        exact OmgsR.value ht h
      · rintro e used rest rfl ⟨h1, h2, h3⟩
        refine .empty ?_ ?_
        · intro hne
          have := OmgsR.left (l := l) ht h2 h3 hne
          simpa [← h1] using this
        · rintro rfl
          rw [List.append_nil, h1]
          refine .block hb recognises_switch (fun p h => .body ht h2 h) ?_
          intro nodes cur' l' hbody
          exact .map (ih _) fun r h => OmgsR.cons ht h2 hbody h

theorem parseMebbes_read (n m : Nat) (s : Stmts) : RPost (MebbesR s) (exec (parseMebbes block n m) s) := by
  induction m generalizing s with
  | zero => trivial
  | succ m ih =>
    unfold parseMebbes
    refine .nextIfEq (fun h => MebbesR.nil h) ?_
    obtain ⟨cur, l⟩ := s
    rintro t r hcur ht
    dsimp only at hcur ⊢
    subst hcur
    refine .next ?_ ?_
    · rintro rfl
      exact MebbesR.valueEnd ht
    · rintro u r rfl
      refine .bindL (parseExpr_lpost n r l u) ?_ ?_
      · rintro f used rest rfl h
        exact MebbesR.value ht h
      · rintro e used rest rfl ⟨h1, h2, h3⟩
        refine .empty ?_ ?_
        · intro hne
          have := MebbesR.left (l := l) ht h2 h3 hne
          simpa [← h1] using this
        · rintro rfl
          rw [List.append_nil, h1]
          refine .block hb recognises_if (fun p h => .body ht h2 h) ?_
          intro nodes cur' l' hbody
          exact .map (ih _) fun r h => MebbesR.cons ht h2 hbody h

theorem parseOmgWtf_read (s : Stmts) : RPost (OmgWtfR s) (exec (parseOmgWtf block) s) := by
  unfold parseOmgWtf
  refine .nextIf (fun h => OmgWtfR.none h) ?_
  obtain ⟨cur, l⟩ := s
  rintro t r hcur ht
  dsimp only at hcur ⊢
  subst hcur
  refine .empty (fun h => OmgWtfR.left ht h) ?_
  rintro rfl
  exact .map (hb _ _ _ recognises_switch) fun r h => OmgWtfR.some ht h

theorem parseYaRly_read (s : Stmts) : RPost (YaRlyR s) (exec (parseYaRly block) s) := by
  unfold parseYaRly
  refine .nextIf (fun h => YaRlyR.none h) ?_
  obtain ⟨cur, l⟩ := s
  rintro t r hcur ht
  dsimp only at hcur ⊢
  subst hcur
  refine .empty (fun h => YaRlyR.left ht h) ?_
  rintro rfl
  exact .map (hb _ _ _ recognises_if) fun r h => YaRlyR.some ht h

theorem parseNoWai_read (s : Stmts) : RPost (NoWaiR s) (exec (parseNoWai block) s) := by
  unfold parseNoWai
  refine .nextIf (fun h => NoWaiR.none h) ?_
  obtain ⟨cur, l⟩ := s
  rintro t r hcur ht
  dsimp only at hcur ⊢
  subst hcur
  refine .empty (fun h => NoWaiR.left ht h) ?_
  rintro rfl
  exact .map (hb _ _ _ recognises_if) fun r h => NoWaiR.some ht h

theorem parseWtf_read (n : Nat) {first : Token} (hk : first.Is .WTF) (cur : List Token)
    (later : List (List Token)) :
    RPost (NodeR ⟨first :: cur, later⟩) (exec (parseWtf block n first) ⟨cur, later⟩) := by
  unfold parseWtf
  refine .next ?_ ?_
  · rintro rfl
    exact NodeR.headFail (.questionEnd (.inl hk) rfl)
  · rintro q r rfl
    dsimp only
    split
    · rename_i hq
      rw [Token.isQuestion_iff] at hq
      refine .empty ?_ ?_
      · intro hne
        exact NodeR.headLeft (later := later) (ts := [first, q]) (HeadR.switch hk hq) hne
      · rintro rfl
        have hhead := HeadR.switch (rest := []) hk hq
        refine .bind (parseOmgs_read hb n n _) (fun f s h => .switchCases hhead h) ?_
        intro omgs s1 h1
        refine .bind (parseOmgWtf_read hb _) (fun f s h => .switchDefault hhead h1 h) ?_
        rintro dflt ⟨c, l⟩ h2
        refine .next ?_ ?_
        · rintro rfl
          exact NodeR.switchEnd hhead h1 h2
        · rintro c r rfl
          dsimp only
          split
          · rename_i hc
            rw [Token.isKeyword_iff] at hc
            refine .empty (fun hne => NodeR.switchLeft hhead h1 h2 hc hne) ?_
            rintro rfl
            exact NodeR.switch hhead h1 h2 hc
          · rename_i hc
            rw [Token.isKeyword_iff] at hc
            exact NodeR.switchOther hhead h1 h2 hc
    · rename_i hq
      rw [Token.isQuestion_iff] at hq
      exact NodeR.headFail (rest := r) (ts := [first, q]) (.question (.inl hk) hq)

theorem parseORly_read (n : Nat) {first : Token} (hk : first.Is .O_RLY) (cur : List Token)
    (later : List (List Token)) :
    RPost (NodeR ⟨first :: cur, later⟩) (exec (parseORly block n first) ⟨cur, later⟩) := by
  unfold parseORly
  refine .next ?_ ?_
  · rintro rfl
    exact NodeR.headFail (.questionEnd (.inr hk) rfl)
  · rintro q r rfl
    dsimp only
    split
    · rename_i hq
      rw [Token.isQuestion_iff] at hq
      refine .empty ?_ ?_
      · intro hne
        exact NodeR.headLeft (later := later) (ts := [first, q]) (HeadR.conditional hk hq) hne
      · rintro rfl
        have hhead := HeadR.conditional (rest := []) hk hq
        refine .bind (parseYaRly_read hb _) (fun f s h => .conditionalYes hhead h) ?_
        intro yaRly s1 h1
        refine .bind (parseMebbes_read hb n n _) (fun f s h => .conditionalMaybe hhead h1 h) ?_
        intro mebbes s2 h2
        refine .bind (parseNoWai_read hb _) (fun f s h => .conditionalNo hhead h1 h2 h) ?_
        rintro noWai ⟨c, l⟩ h3
        refine .next ?_ ?_
        · rintro rfl
          exact NodeR.conditionalEnd hhead h1 h2 h3
        · rintro c r rfl
          dsimp only
          split
          · rename_i hc
            rw [Token.isKeyword_iff] at hc
            exact NodeR.conditional hhead h1 h2 h3 hc
          · rename_i hc
            rw [Token.isKeyword_iff] at hc
            exact NodeR.conditionalOther hhead h1 h2 h3 hc
    · rename_i hq
      rw [Token.isQuestion_iff] at hq
      exact NodeR.headFail (rest := r) (ts := [first, q]) (.question (.inr hk) hq)

theorem parseStatement_read (n : Nat) (t : Token) (cur : List Token) (later : List (List Token)) :
    RPost (NodeR ⟨t :: cur, later⟩) (exec (parseStatement block n t) ⟨cur, later⟩) := by
  by_cases ht : ∀ k ∈ blockKeywords, ¬ t.Is k
  · have h1 := parseStatement_ok ht n block cur later
    have h2 := parseStatement_fail ht n block cur later
    cases hr : exec (parseStatement block n t) ⟨cur, later⟩ with
    | ok node s =>
      rw [hr] at h1
      obtain ⟨u, c, rfl, rfl, h⟩ := h1
      exact NodeR.simple h
    | err e s =>
      rw [hr] at h2
      obtain ⟨u, c, rfl, rfl, h⟩ := h2
      exact NodeR.simpleFail h
    | panic p =>
      rw [hr] at h2
      obtain ⟨u, c, rfl, h⟩ := h2
      exact NodeR.simpleFail (later := later) h
    | outOfFuel => trivial
  · simp only [blockKeywords, List.mem_cons, List.not_mem_nil, or_false, forall_eq_or_imp, forall_eq,
      Classical.not_and_iff_not_or_not, Classical.not_not] at ht
    have hv : ∀ k, t.Is k → k ≠ .SRS → VariableAccess.isValid t = false := fun k => notValid
    rcases ht with h | h | h | h | h
    · have hv := hv _ h (by decide)
      have h' : t.tokenType = _ := h
      have : exec (parseStatement block n t) ⟨cur, later⟩ = .ok (.hai ⟨t, cur⟩) (.of later) := by
        simp [parseStatement, hv, h', Hai.parse, Stmts.advance_of]
      rw [this]
      exact NodeR.hai h
    · have hv := hv _ h (by decide)
      have h' : t.tokenType = _ := h
      have : parseStatement block n t = parseImInYr block n t := by simp [parseStatement, hv, h']
      rw [this]
      exact parseImInYr_read hb n h cur later
    · have hv := hv _ h (by decide)
      have h' : t.tokenType = _ := h
      have : parseStatement block n t = parseHowIzI block n t := by simp [parseStatement, hv, h']
      rw [this]
      exact parseHowIzI_read hb n h cur later
    · have hv := hv _ h (by decide)
      have h' : t.tokenType = _ := h
      have : parseStatement block n t = parseWtf block n t := by simp [parseStatement, hv, h']
      rw [this]
      exact parseWtf_read hb n h cur later
    · have hv := hv _ h (by decide)
      have h' : t.tokenType = _ := h
      have : parseStatement block n t = parseORly block n t := by simp [parseStatement, hv, h']
      rw [this]
      exact parseORly_read hb n h cur later

end

theorem Stop_of_nil {close : List Keyword} {s : Stmts} (h : s.cur = []) : Stop close s := .inl h

theorem blockTail_read {n : Nat} (ih : BlockS (parseBlock n)) {stop : Token → Bool} {close : List Keyword}
    (hs : Recognises stop close) {s : Stmts} {pre : Block} {c : List Token} {l : List (List Token)}
    (h : StepR s (.ok (pre ++ leftoverNodes c) (.of l))) :
    RPost (BlockR close s) (exec (blockTail n stop pre) ⟨c, l⟩) := by
  rw [exec_blockTail]
  cases hc : (Stmts.of l).cur with
  | nil => exact BlockR.last h (.inl hc)
  | cons t r =>
    dsimp only
    split
    · rename_i ht
      exact BlockR.last h (.inr ⟨t, r, hc, (hs t).1 ht⟩)
    · rename_i ht
      have hns : ¬ Stop close (.of l) := by
        rintro (h | ⟨t', r', h, h'⟩)
        · rw [hc] at h; cases h
        · rw [hc] at h
          cases h
          exact ht ((hs t).2 h')
      have hmore := ih stop close (.of l) hs
      cases hr : exec (parseBlock n stop) (.of l) with
      | ok nodes s' => rw [hr] at hmore; exact BlockR.more h hns hmore
      | err e s' => rw [hr] at hmore; exact BlockR.more h hns hmore
      | panic p => rw [hr] at hmore; exact BlockR.more h hns hmore
      | outOfFuel => trivial

theorem parseBlock_read (n : Nat) : BlockS (parseBlock n) := by
  induction n with
  | zero => intro stop close s hs; rw [parseBlock]; trivial
  | succ n ih =>
    intro stop close s hs
    obtain ⟨cur, later⟩ := s
    cases cur with
    | nil =>
      rw [parseBlock_nil]
      exact blockTail_read ih hs (pre := []) (c := []) .empty
    | cons t cur =>
      rw [parseBlock_cons', exec_toResult]
      have h := parseStatement_read ih n t cur later
      cases hr : exec (parseStatement (parseBlock n) n t) ⟨cur, later⟩ with
      | ok node s =>
        rw [hr] at h
        exact blockTail_read ih hs (pre := [node]) (.ok h)
      | err e s =>
        rw [hr] at h
        exact blockTail_read ih hs (pre := [.astError e]) (.error h)
      | panic p =>
        rw [hr] at h
        exact BlockR.panic (.panic h)
      | outOfFuel => trivial

end Lol
