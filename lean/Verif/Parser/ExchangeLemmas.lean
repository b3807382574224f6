import Verif.Parser.EditLemmas
import Verif.Parser.ProgramComplete

/-! # Lemmas: a sequence of nodes in place of another one, in a program of the grammar -/

namespace Lol

/-- A construct of the grammar is read in one step, whatever follows. -/
theorem NodeG.step {L : List (List Token)} {node : Node} (h : NodeG L node) :
    ∃ t r a, L = (t :: r) :: a ∧ NotStop t ∧ ∀ A, StepR ⟨t :: r, a ++ A⟩ (.ok [node] (.of A)) := by
  obtain ⟨t, r, a, rfl, hs, h⟩ := h.complete
  refine ⟨t, r, a, rfl, hs, fun A => ?_⟩
  obtain ⟨n, h⟩ := h A
  obtain ⟨s', h1, h2, h3⟩ := h n (Nat.le_refl n)
  have hr := parseStatement_read (parseBlock_read n) n t r (a ++ A)
  rw [h1] at hr
  obtain ⟨cur, later⟩ := s'
  cases h2
  have : StepR _ (.ok (_ :: leftoverNodes []) (.of later)) := .ok hr
  rw [← h3, Stmts.advance_of]
  exact this

/-- Where a construct ends is known from the statements. -/
theorem NodeG.unique {L L' A A' : List (List Token)} {node node' : Node} (h : NodeG L node) (h' : NodeG L' node')
    (he : L ++ A = L' ++ A') : L = L' ∧ node = node' ∧ A = A' := by
  obtain ⟨t, r, a, rfl, -, h1⟩ := h.step
  obtain ⟨t', r', a', rfl, -, h2⟩ := h'.step
  have he' : ((t :: r) :: a) ++ (A ++ [[t]]) = ((t' :: r') :: a') ++ (A' ++ [[t]]) := by
    rw [← List.append_assoc, he, List.append_assoc]
  simp only [List.cons_append, List.cons.injEq] at he'
  obtain ⟨⟨rfl, rfl⟩, he'⟩ := he'
  have h1 := h1 (A ++ [[t]])
  rw [he'] at h1
  have h3 := h1.det (h2 (A' ++ [[t]]))
  obtain ⟨h4, h5⟩ := Read.ok.inj h3
  have hA : A ++ [[t]] = A' ++ [[t]] := by
    have inj : ∀ {x y : List (List Token)}, x ≠ [] → y ≠ [] → Stmts.of x = Stmts.of y → x = y := by
      intro x y hx hy h
      cases x with
      | nil => exact absurd rfl hx
      | cons c x =>
        cases y with
        | nil => exact absurd rfl hy
        | cons d y => cases h; rfl
    exact inj (by simp) (by simp) h5
  have hA := List.append_cancel_right hA
  subst hA
  have ha := List.append_cancel_right he'
  subst ha
  exact ⟨rfl, (List.cons.inj h4).1, rfl⟩

/-- No construct starts there. -/
def StopsAt (T : List (List Token)) : Prop := ∀ t r T', T = (t :: r) :: T' → ∃ k ∈ stopKeywords, t.Is k

theorem StopsAt.cons {t : Token} {r : List Token} {T : List (List Token)} {k : Keyword} (h : t.Is k)
    (hk : k ∈ stopKeywords) : StopsAt ((t :: r) :: T) := by
  rintro _ _ _ ⟨⟩
  exact ⟨k, hk, h⟩

theorem StopsAt.empty {T : List (List Token)} : StopsAt ([] :: T) := by
  rintro _ _ _ ⟨⟩

theorem StopsAt.nil : StopsAt [] := by
  rintro _ _ _ ⟨⟩

theorem StopsAt.not {T M Q : List (List Token)} {y : Block} (h : StopsAt T) (hM : NodesG M y) (hne : M ≠ [])
    (he : T = M ++ Q) : False := by
  cases hM with
  | nil => exact hne rfl
  | cons h1 h2 =>
    obtain ⟨t, r, a, rfl, hs, -⟩ := h1.step
    obtain ⟨k, hk, ht⟩ := h _ _ _ he
    exact hs k hk ht

theorem OmgsG.stopsAt {L T : List (List Token)} {o : List WtfOmg} (h : OmgsG L o) (hT : StopsAt T) :
    StopsAt (L ++ T) := by
  cases h with
  | nil => exact hT
  | cons h1 => exact .cons h1 (by decide)

theorem OmgWtfG.stopsAt {L T : List (List Token)} {o : Option WtfOmgWtf} (h : OmgWtfG L o) (hT : StopsAt T) :
    StopsAt (L ++ T) := by
  cases h with
  | none => exact hT
  | some h1 => exact .cons h1 (by decide)

theorem MebbesG.stopsAt {L T : List (List Token)} {o : List Mebbe} (h : MebbesG L o) (hT : StopsAt T) :
    StopsAt (L ++ T) := by
  cases h with
  | nil => exact hT
  | cons h1 => exact .cons h1 (by decide)

theorem NoWaiG.stopsAt {L T : List (List Token)} {o : Option NoWai} (h : NoWaiG L o) (hT : StopsAt T) :
    StopsAt (L ++ T) := by
  cases h with
  | none => exact hT
  | some h1 => exact .cons h1 (by decide)

theorem NodesG.append : ∀ {L L' : List (List Token)} {b b' : Block}, NodesG L b → NodesG L' b' →
    NodesG (L ++ L') (b ++ b')
  | _, _, _, _, .nil, h => h
  | _, _, _, _, .cons h1 h2, h => by
    rw [List.append_assoc, List.cons_append]
    exact .cons h1 (h2.append h)

theorem NodesG.blockG {L : List (List Token)} {b : Block} (h : NodesG L b) (hne : L ≠ []) : BlockG L b := by
  cases h with
  | nil => exact absurd rfl hne
  | cons h1 h2 => exact .nodes h1 h2

/-- A sequence of nodes at the beginning of another one. -/
theorem NodesG.start {T Q : List (List Token)} (hT : StopsAt T) : ∀ {M L : List (List Token)} {y b : Block},
    NodesG M y → NodesG L b → L ++ T = M ++ Q → ∃ Q1 c, b = y ++ c ∧ NodesG Q1 c ∧ Q = Q1 ++ T
  | _, L, _, b, .nil, hL, he => ⟨L, b, rfl, hL, he.symm⟩
  | _, _, _, _, .cons h1 h2, .nil, he => by
    refine (hT.not (.cons h1 h2) ?_ he).elim
    obtain ⟨_, _, _, rfl, -⟩ := h1.step
    simp
  | _, _, _, _, .cons h1 h2, .cons g1 g2, he => by
    rw [List.append_assoc, List.append_assoc] at he
    obtain ⟨-, rfl, he⟩ := g1.unique h1 he
    obtain ⟨Q1, c, rfl, h3, h4⟩ := h2.start hT g2 he
    exact ⟨Q1, c, rfl, h3, h4⟩

/-- Where the second of two equal concatenations starts. -/
theorem start_in {α : Type} {A B P X : List α} (h : A ++ B = P ++ X) :
    P.length < A.length ∨ ∃ P', P = A ++ P' ∧ B = P' ++ X := by
  rcases List.append_eq_append_iff.1 h with ⟨a, h1, h2⟩ | ⟨a, h1, h2⟩
  · exact .inr ⟨a, h1, h2⟩
  · cases a with
    | nil => exact .inr ⟨[], by simpa using h1.symm, by simpa using h2.symm⟩
    | cons c a => left; rw [h1]; simp

section

variable {M N : List (List Token)} {y z : Block} (hM : NodesG M y) (hne : M ≠ []) (hN : NodesG N z) (hne' : N ≠ [])

/-- The nodes of the two sequences. -/
def Both (y z x x' : Block) : Prop := x = y ∧ x' = z

include hM hne hN hne'

mutual

theorem NodeG.exchange : {a : List (List Token)} → {n : Node} → NodeG a n → ∀ P Q T, a ++ T = P ++ (M ++ Q) →
    P ≠ [] → P.length < a.length → ∃ Q1 n', Q = Q1 ++ T ∧ NodeG (P ++ (N ++ Q1)) n' ∧ ENode (Both y z) n n'
  | _, _, .simple h, P, Q, T, he, hP, hl => by
    cases P with
    | nil => exact absurd rfl hP
    | cons c P => simp at hl
  | _, _, .hai h, P, Q, T, he, hP, hl => by
    obtain ⟨c, P, rfl⟩ := List.exists_cons_of_ne_nil hP
    have : P = [] := by
      cases P with
      | nil => rfl
      | cons _ _ => simp at hl; omega
    subst this
    simp only [List.cons_append, List.cons.injEq, List.nil_append] at he
    exact (StopsAt.empty.not hM hne he.2).elim
  | _, _, .loop (c := c) (endLabel := e) h1 h2 h3 h4 hb h6 h7, P, Q, T, he, hP, hl => by
    have ih := BlockG.exchange hb
    obtain ⟨p, P, rfl⟩ := List.exists_cons_of_ne_nil hP
    simp only [List.cons_append, List.cons.injEq, List.append_assoc] at he
    obtain ⟨rfl, he⟩ := he
    rcases start_in he with h | ⟨P', hp, he'⟩
    · obtain ⟨Q1, b', rfl, h8, h9⟩ := ih (.cons h6 (by decide)) P Q he h
      refine ⟨Q1 ++ [[c, e]], _, by simp, ?_, .loop [] [] _ _ _ _ _ h9⟩
      have := NodeG.loop h1 h2 h3 h4 h8 h6 h7
      simpa using this
    · clear he; subst hp; have he := he'; clear he'
      have : P' = [] := by
        cases P' with
        | nil => rfl
        | cons _ _ => simp at hl
      subst this
      exact ((StopsAt.cons h6 (by decide)).not hM hne he).elim
  | _, _, .function (c := c) h1 h2 h3 hb h6, P, Q, T, he, hP, hl => by
    have ih := BlockG.exchange hb
    obtain ⟨p, P, rfl⟩ := List.exists_cons_of_ne_nil hP
    simp only [List.cons_append, List.cons.injEq, List.append_assoc] at he
    obtain ⟨rfl, he⟩ := he
    rcases start_in he with h | ⟨P', hp, he'⟩
    · obtain ⟨Q1, b', rfl, h8, h9⟩ := ih (.cons h6 (by decide)) P Q he h
      refine ⟨Q1 ++ [[c], []], _, by simp, ?_, .function [] [] _ _ _ h9⟩
      have := NodeG.function h1 h2 h3 h8 h6
      simpa using this
    · clear he; subst hp; have he := he'; clear he'
      cases P' with
      | nil => exact ((StopsAt.cons h6 (by decide)).not hM hne he).elim
      | cons q P' =>
        simp only [List.cons_append, List.cons.injEq] at he
        obtain ⟨rfl, he⟩ := he
        have : P' = [] := by
          cases P' with
          | nil => rfl
          | cons _ _ => simp at hl; omega
        subst this
        exact (StopsAt.empty.not hM hne he).elim
  | _, _, .switch (dflt := d) (c := c) h1 h2 h3 h4 h5, P, Q, T, he, hP, hl => by
    have ih1 := OmgsG.exchange h3
    have ih2 := OmgWtfG.exchange h4
    obtain ⟨p, P, rfl⟩ := List.exists_cons_of_ne_nil hP
    simp only [List.cons_append, List.cons.injEq, List.append_assoc] at he
    obtain ⟨rfl, he⟩ := he
    rcases start_in he with h | ⟨P', hp, he'⟩
    · obtain ⟨Q1, b', rfl, h8, h9⟩ := ih1 (h4.stopsAt (.cons h5 (by decide))) P Q he h
      refine ⟨Q1 ++ (d ++ [[c], []]), _, by simp, ?_, by simpa [ENode] using h9 _ [] _⟩
      have := NodeG.switch h1 h2 h8 h4 h5
      simpa using this
    · clear he; subst hp; have he := he'; clear he'
      rcases start_in he with h | ⟨P', hp, he'⟩
      · obtain ⟨Q1, b', rfl, h8, h9⟩ := ih2 (.cons h5 (by decide)) P' Q he h
        refine ⟨Q1 ++ [[c], []], _, by simp, ?_, h9 _ _⟩
        have := NodeG.switch h1 h2 h3 h8 h5
        simpa using this
      · clear he; subst hp; have he := he'; clear he'
        cases P' with
        | nil => exact ((StopsAt.cons h5 (by decide)).not hM hne he).elim
        | cons q P' =>
          simp only [List.cons_append, List.cons.injEq] at he
          obtain ⟨rfl, he⟩ := he
          have : P' = [] := by
            cases P' with
            | nil => rfl
            | cons _ _ => simp at hl; omega
          subst this
          exact (StopsAt.empty.not hM hne he).elim
  | _, _, .conditional (maybe := ms) (no := no) (c := c) h1 h2 h3 h4 h5 h6, P, Q, T, he, hP, hl => by
    have ih1 := YaRlyG.exchange h3
    have ih2 := MebbesG.exchange h4
    have ih3 := NoWaiG.exchange h5
    obtain ⟨p, P, rfl⟩ := List.exists_cons_of_ne_nil hP
    simp only [List.cons_append, List.cons.injEq, List.append_assoc] at he
    obtain ⟨rfl, he⟩ := he
    rcases start_in he with h | ⟨P', hp, he'⟩
    · obtain ⟨Q1, b', rfl, h8, h9⟩ := ih1 (h4.stopsAt (h5.stopsAt (.cons h6 (by decide)))) P Q he h
      refine ⟨Q1 ++ (ms ++ (no ++ [[c]])), _, by simp, ?_, h9 _ _ _⟩
      have := NodeG.conditional h1 h2 h8 h4 h5 h6
      simpa using this
    · clear he; subst hp; have he := he'; clear he'
      rcases start_in he with h | ⟨P', hp, he'⟩
      · obtain ⟨Q1, b', rfl, h8, h9⟩ := ih2 (h5.stopsAt (.cons h6 (by decide))) P' Q he h
        refine ⟨Q1 ++ (no ++ [[c]]), _, by simp, ?_, by simpa [ENode] using h9 _ _ _ []⟩
        have := NodeG.conditional h1 h2 h3 h8 h5 h6
        simpa using this
      · clear he; subst hp; have he := he'; clear he'
        rcases start_in he with h | ⟨P', hp, he'⟩
        · obtain ⟨Q1, b', rfl, h8, h9⟩ := ih3 (.cons h6 (by decide)) P' Q he h
          refine ⟨Q1 ++ [[c]], _, by simp, ?_, h9 _ _ _⟩
          have := NodeG.conditional h1 h2 h3 h4 h8 h6
          simpa using this
        · clear he; subst hp; have he := he'; clear he'
          have : P' = [] := by
            cases P' with
            | nil => rfl
            | cons _ _ => simp at hl
          subst this
          exact ((StopsAt.cons h6 (by decide)).not hM hne he).elim

theorem OmgsG.exchange : {L : List (List Token)} → {o : List WtfOmg} → OmgsG L o → ∀ ⦃T⦄, StopsAt T → ∀ P Q,
    L ++ T = P ++ (M ++ Q) → P.length < L.length →
    ∃ Q1 o', Q = Q1 ++ T ∧ OmgsG (P ++ (N ++ Q1)) o' ∧ EOmgs (Both y z) o o'
  | _, _, .nil, _, _, _, _, _, hl => absurd hl (by simp)
  | _, _, .cons (t := u) (e := e) (nodes := nodes) h1 h2 hb h3, T, hT, P, Q, he, hl => by
    have ih1 := BlockG.exchange hb
    have ih2 := OmgsG.exchange h3
    cases P with
    | nil => exact ((StopsAt.cons h1 (by decide)).not hM hne he).elim
    | cons p P =>
      simp only [List.cons_append, List.cons.injEq, List.append_assoc] at he
      obtain ⟨rfl, he⟩ := he
      rcases start_in he with h | ⟨P', hp, he'⟩
      · obtain ⟨Q1, b', rfl, h8, h9⟩ := ih1 (h3.stopsAt hT) P Q he h
        refine ⟨Q1 ++ _, _, (List.append_assoc _ _ _).symm, ?_, fun t l d => .case [] [] t l _ _ _ d h9⟩
        have := OmgsG.cons h1 h2 h8 h3
        simpa using this
      · clear he; subst hp; have he := he'; clear he'
        obtain ⟨Q1, o', rfl, h8, h9⟩ := ih2 hT P' Q he (by simp at hl; omega)
        refine ⟨Q1, .mk u e nodes :: o', rfl, ?_, fun t l d => ?_⟩
        · have := OmgsG.cons h1 h2 hb h8
          simpa using this
        · rw [List.append_cons, List.append_cons l _ o']
          exact h9 t _ d

theorem MebbesG.exchange : {L : List (List Token)} → {o : List Mebbe} → MebbesG L o → ∀ ⦃T⦄, StopsAt T → ∀ P Q,
    L ++ T = P ++ (M ++ Q) → P.length < L.length →
    ∃ Q1 o', Q = Q1 ++ T ∧ MebbesG (P ++ (N ++ Q1)) o' ∧ EMebbes (Both y z) o o'
  | _, _, .nil, _, _, _, _, _, hl => absurd hl (by simp)
  | _, _, .cons (t := u) (e := e) (nodes := nodes) h1 h2 hb h3, T, hT, P, Q, he, hl => by
    have ih1 := BlockG.exchange hb
    have ih2 := MebbesG.exchange h3
    cases P with
    | nil => exact ((StopsAt.cons h1 (by decide)).not hM hne he).elim
    | cons p P =>
      simp only [List.cons_append, List.cons.injEq, List.append_assoc] at he
      obtain ⟨rfl, he⟩ := he
      rcases start_in he with h | ⟨P', hp, he'⟩
      · obtain ⟨Q1, b', rfl, h8, h9⟩ := ih1 (h3.stopsAt hT) P Q he h
        refine ⟨Q1 ++ _, _, (List.append_assoc _ _ _).symm, ?_, fun t y' n l => .maybe [] [] t y' n l _ _ _ h9⟩
        have := MebbesG.cons h1 h2 h8 h3
        simpa using this
      · clear he; subst hp; have he := he'; clear he'
        obtain ⟨Q1, o', rfl, h8, h9⟩ := ih2 hT P' Q he (by simp at hl; omega)
        refine ⟨Q1, .mk u e nodes :: o', rfl, ?_, fun t y' n l => ?_⟩
        · have := MebbesG.cons h1 h2 hb h8
          simpa using this
        · rw [List.append_cons, List.append_cons l _ o']
          exact h9 t y' n _

theorem OmgWtfG.exchange : {L : List (List Token)} → {o : Option WtfOmgWtf} → OmgWtfG L o → ∀ ⦃T⦄, StopsAt T → ∀ P Q,
    L ++ T = P ++ (M ++ Q) → P.length < L.length →
    ∃ Q1 o', Q = Q1 ++ T ∧ OmgWtfG (P ++ (N ++ Q1)) o' ∧ EOmgWtf (Both y z) o o'
  | _, _, .none, _, _, _, _, _, hl => absurd hl (by simp)
  | _, _, .some h1 hb, T, hT, P, Q, he, hl => by
    have ih := BlockG.exchange hb
    cases P with
    | nil => exact ((StopsAt.cons h1 (by decide)).not hM hne he).elim
    | cons p P =>
      simp only [List.cons_append, List.cons.injEq] at he
      obtain ⟨rfl, he⟩ := he
      obtain ⟨Q1, b', rfl, h8, h9⟩ := ih hT P Q he (by simpa using hl)
      exact ⟨Q1, _, rfl, .some h1 h8, fun t l => .dflt [] [] t l _ h9⟩

theorem YaRlyG.exchange : {L : List (List Token)} → {o : Option YaRly} → YaRlyG L o → ∀ ⦃T⦄, StopsAt T → ∀ P Q,
    L ++ T = P ++ (M ++ Q) → P.length < L.length →
    ∃ Q1 o', Q = Q1 ++ T ∧ YaRlyG (P ++ (N ++ Q1)) o' ∧ EYaRly (Both y z) o o'
  | _, _, .none, _, _, _, _, _, hl => absurd hl (by simp)
  | _, _, .some h1 hb, T, hT, P, Q, he, hl => by
    have ih := BlockG.exchange hb
    cases P with
    | nil => exact ((StopsAt.cons h1 (by decide)).not hM hne he).elim
    | cons p P =>
      simp only [List.cons_append, List.cons.injEq] at he
      obtain ⟨rfl, he⟩ := he
      obtain ⟨Q1, b', rfl, h8, h9⟩ := ih hT P Q he (by simpa using hl)
      exact ⟨Q1, _, rfl, .some h1 h8, fun t n l => .yes [] [] t _ n l h9⟩

theorem NoWaiG.exchange : {L : List (List Token)} → {o : Option NoWai} → NoWaiG L o → ∀ ⦃T⦄, StopsAt T → ∀ P Q,
    L ++ T = P ++ (M ++ Q) → P.length < L.length →
    ∃ Q1 o', Q = Q1 ++ T ∧ NoWaiG (P ++ (N ++ Q1)) o' ∧ ENoWai (Both y z) o o'
  | _, _, .none, _, _, _, _, _, hl => absurd hl (by simp)
  | _, _, .some h1 hb, T, hT, P, Q, he, hl => by
    have ih := BlockG.exchange hb
    cases P with
    | nil => exact ((StopsAt.cons h1 (by decide)).not hM hne he).elim
    | cons p P =>
      simp only [List.cons_append, List.cons.injEq] at he
      obtain ⟨rfl, he⟩ := he
      obtain ⟨Q1, b', rfl, h8, h9⟩ := ih hT P Q he (by simpa using hl)
      exact ⟨Q1, _, rfl, .some h1 h8, fun t y' l => .no [] [] t _ y' l h9⟩

theorem BlockG.exchange : {L : List (List Token)} → {b : Block} → BlockG L b → ∀ ⦃T⦄, StopsAt T → ∀ P Q,
    L ++ T = P ++ (M ++ Q) → P.length < L.length →
    ∃ Q1 b', Q = Q1 ++ T ∧ BlockG (P ++ (N ++ Q1)) b' ∧ Edited (Both y z) b b'
  | _, _, .nodes (a := a) (rest := rest) (node := node) (nodes := nodes) h1 h2, T, hT, P, Q, he, hl => by
    have ih1 := NodeG.exchange h1
    have ih2 := NodesG.exchange h2
    cases P with
    | nil =>
      obtain ⟨Q1, c, hc, h3, rfl⟩ := hM.start hT (.cons h1 h2) he
      rw [hc]
      exact ⟨Q1, z ++ c, rfl, (hN.append h3).blockG (by simp [hne']), .here [] c ⟨rfl, rfl⟩⟩
    | cons p P =>
      rw [List.append_assoc] at he
      rcases start_in he with h | ⟨P', hP', he⟩
      · obtain ⟨Q1, n', rfl, h8, h9⟩ := ih1 _ _ _ he (by simp) h
        refine ⟨Q1 ++ rest, n' :: nodes, by simp, ?_, Edited.append_right nodes h9⟩
        have := BlockG.nodes h8 h2
        simpa using this
      · rw [hP'] at hl ⊢
        obtain ⟨Q1, b', rfl, h8, h9⟩ := ih2 hT P' Q he (by simp at hl; omega)
        refine ⟨Q1, node :: b', rfl, ?_, Edited.append_left [node] h9⟩
        have := BlockG.nodes h1 h8
        simpa using this
  | _, _, .skip h2, T, hT, P, Q, he, hl => by
    have ih2 := NodesG.exchange h2
    cases P with
    | nil => exact (StopsAt.empty.not hM hne he).elim
    | cons p P =>
      simp only [List.cons_append, List.cons.injEq] at he
      obtain ⟨rfl, he⟩ := he
      obtain ⟨Q1, b', rfl, h8, h9⟩ := ih2 hT P Q he (by simpa using hl)
      exact ⟨Q1, b', rfl, .skip h8, h9⟩

theorem NodesG.exchange : {L : List (List Token)} → {b : Block} → NodesG L b → ∀ ⦃T⦄, StopsAt T → ∀ P Q,
    L ++ T = P ++ (M ++ Q) → P.length < L.length →
    ∃ Q1 b', Q = Q1 ++ T ∧ NodesG (P ++ (N ++ Q1)) b' ∧ Edited (Both y z) b b'
  | _, _, .nil, _, _, _, _, _, hl => absurd hl (by simp)
  | _, _, .cons (a := a) (rest := rest) (node := node) (nodes := nodes) h1 h2, T, hT, P, Q, he, hl => by
    have ih1 := NodeG.exchange h1
    have ih2 := NodesG.exchange h2
    cases P with
    | nil =>
      obtain ⟨Q1, c, hc, h3, rfl⟩ := hM.start hT (.cons h1 h2) he
      rw [hc]
      exact ⟨Q1, z ++ c, rfl, hN.append h3, .here [] c ⟨rfl, rfl⟩⟩
    | cons p P =>
      rw [List.append_assoc] at he
      rcases start_in he with h | ⟨P', hP', he⟩
      · obtain ⟨Q1, n', rfl, h8, h9⟩ := ih1 _ _ _ he (by simp) h
        refine ⟨Q1 ++ rest, n' :: nodes, by simp, ?_, Edited.append_right nodes h9⟩
        have := NodesG.cons h8 h2
        simpa using this
      · rw [hP'] at hl ⊢
        obtain ⟨Q1, b', rfl, h8, h9⟩ := ih2 hT P' Q he (by simp at hl; omega)
        refine ⟨Q1, node :: b', rfl, ?_, Edited.append_left [node] h9⟩
        have := NodesG.cons h1 h8
        simpa using this

end

end

end Lol
