import Verif.Parser.CloseSpec

/-! # Lemmas on programs that are cut off (for C83) -/

namespace Lol

theorem Closers.split {ks js : List Closer} {C : List (List Token)} (h : Closers (ks ++ js) C) :
    ∃ C1 C2, C = C1 ++ C2 ∧ Closers ks C1 ∧ Closers js C2 := by
  induction ks generalizing C with
  | nil => exact ⟨[], C, rfl, .nil, h⟩
  | cons k ks ih =>
    cases h with
    | loop h1 h2 h =>
      obtain ⟨C1, C2, rfl, h3, h4⟩ := ih h
      exact ⟨_ :: C1, C2, rfl, .loop h1 h2 h3, h4⟩
    | function h1 h =>
      obtain ⟨C1, C2, rfl, h3, h4⟩ := ih h
      exact ⟨_ :: C1, C2, rfl, .function h1 h3, h4⟩
    | oic h1 h =>
      obtain ⟨C1, C2, rfl, h3, h4⟩ := ih h
      exact ⟨_ :: C1, C2, rfl, .oic h1 h3, h4⟩
    | empty h =>
      obtain ⟨C1, C2, rfl, h3, h4⟩ := ih h
      exact ⟨_ :: C1, C2, rfl, .empty h3, h4⟩

/-- The statements `P` can be closed: a list of `n` closers at most makes them all that `G` asks for. -/
def CanClose (G : List (List Token) → Prop) (n : Nat) (P : List (List Token)) : Prop :=
  ∃ ks : List Closer, ks.length ≤ n ∧ ∀ C, Closers ks C → G (P ++ C)

theorem CanClose.of {G : List (List Token) → Prop} {n : Nat} {P : List (List Token)} (h : G P) : CanClose G n P :=
  ⟨[], by simp, fun C hC => by cases hC; simpa using h⟩

/-- A part of the statements, closed, and what can be put before and after it. -/
theorem CanClose.wrap {G H : List (List Token) → Prop} {n m : Nat} {pre P Q : List (List Token)} (js : List Closer)
    (h : CanClose G n P) (hQ : Q = pre ++ P) (hn : n + js.length ≤ m)
    (hG : ∀ S C, G S → Closers js C → H (pre ++ (S ++ C))) : CanClose H m Q := by
  obtain ⟨ks, h1, h2⟩ := h
  refine ⟨ks ++ js, by simp; omega, fun C hC => ?_⟩
  obtain ⟨C1, C2, rfl, h3, h4⟩ := hC.split
  have := hG _ _ (h2 _ h3) h4
  rw [hQ]
  simpa using this

theorem CanClose.mono {G H : List (List Token) → Prop} {n m : Nat} {P : List (List Token)} (h : CanClose G n P)
    (hn : n ≤ m) (hG : ∀ S, G S → H S) : CanClose H m P := by
  obtain ⟨ks, h1, h2⟩ := h
  exact ⟨ks, by omega, fun C hC => hG _ (h2 C hC)⟩

/-- The start of `a ++ b` is a start of `a`, or `a` and a start of `b`. -/
theorem start_append {α : Type} {P M a b : List α} (h : a ++ b = P ++ M) :
    (∃ m, a = P ++ m) ∨ ∃ p, P = a ++ p ∧ b = p ++ M := by
  rcases List.append_eq_append_iff.1 h with ⟨p, h1, h2⟩ | ⟨m, h1, h2⟩
  · exact .inr ⟨p, h1, h2⟩
  · exact .inl ⟨m, h1⟩

theorem Closers.oic_only {C : List (List Token)} (h : Closers [.oic] C) : ∃ c, c.Is .OIC ∧ C = [[c]] := by
  cases h with
  | oic h h' => cases h'; exact ⟨_, h, rfl⟩

theorem Closers.oic_empty {C : List (List Token)} (h : Closers [.oic, .empty] C) :
    ∃ c, c.Is .OIC ∧ C = [[c], []] := by
  cases h with
  | oic h h' => cases h' with | empty h' => cases h'; exact ⟨_, h, rfl⟩

theorem Closers.function_empty {C : List (List Token)} (h : Closers [.function, .empty] C) :
    ∃ c, c.Is .IF_U_SAY_SO ∧ C = [[c], []] := by
  cases h with
  | function h h' => cases h' with | empty h' => cases h'; exact ⟨_, h, rfl⟩

theorem Closers.loop_only {C : List (List Token)} (h : Closers [.loop] C) :
    ∃ c l, c.Is .IM_OUTTA_YR ∧ l.IsIdent ∧ C = [[c, l]] := by
  cases h with
  | loop h1 h2 h' => cases h'; exact ⟨_, _, h1, h2, rfl⟩

theorem Closers.empty_only {C : List (List Token)} (h : Closers [.empty] C) : C = [[]] := by
  cases h with
  | empty h' => cases h'; rfl

/-- The start of a list that ends with `c`: all of it, or a start of what is before `c`. -/
theorem start_last {α : Type} {P M a : List α} {c : α} (h : a ++ [c] = P ++ M) :
    P = a ++ [c] ∨ ∃ m, a = P ++ m := by
  rcases start_append h with h1 | ⟨p, h1, h2⟩
  · exact .inr h1
  · cases p with
    | nil => exact .inr ⟨[], by simp [h1]⟩
    | cons x p =>
      simp only [List.cons_append, List.cons.injEq] at h2
      have : p = [] := by cases p with
        | nil => rfl
        | cons _ _ => simp at h2
      exact .inl (by rw [h1, h2.1, this])

mutual

theorem NodeG.close : ∀ {S : List (List Token)} {node : Node}, NodeG S node → ∀ P M, S = P ++ M → P ≠ [] →
    CanClose (fun S => ∃ n, NodeG S n) (2 * P.length + 1) P
  | _, _, .simple h, P, M, hS, hP => by
    have hS : [] ++ [_] = P ++ M := hS
    rcases start_last hS with h1 | ⟨m, h1⟩
    · subst h1; exact .of ⟨_, .simple h⟩
    · simp only [List.nil_eq, List.append_eq_nil_iff] at h1; exact absurd h1.1 hP
  | _, _, .hai (t := t) (version := version) h, P, M, hS, hP => by
    have hS : [t :: version] ++ [[]] = P ++ M := hS
    rcases start_last hS with h1 | ⟨m, h1⟩
    · subst h1; exact .of ⟨_, .hai h⟩
    · cases P with
      | nil => exact absurd rfl hP
      | cons p P =>
        simp only [List.cons_append, List.cons.injEq, List.nil_eq, List.append_eq_nil_iff] at h1
        obtain ⟨rfl, rfl, rfl⟩ := h1
        refine ⟨[.empty], by simp, fun C hC => ?_⟩
        rw [hC.empty_only]
        exact ⟨_, .hai h⟩
  | _, _, .loop (t := t) (label := label) (ops := ops) (conds := conds) (body := body) (c := c) (endLabel := endLabel)
      h1 h2 h3 h4 hb h5 h6, P, M, hS, hP => by
    have ih := BlockG.close hb
    have hS : ((t :: label :: (ops ++ conds)) :: body) ++ [[c, endLabel]] = P ++ M := hS
    rcases start_last hS with h7 | ⟨m, h7⟩
    · subst h7; exact .of ⟨_, .loop h1 h2 h3 h4 hb h5 h6⟩
    · cases P with
      | nil => exact absurd rfl hP
      | cons p P =>
        simp only [List.cons_append, List.cons.injEq] at h7
        obtain ⟨rfl, h7⟩ := h7
        refine (ih _ _ h7).wrap [.loop] (pre := [_]) rfl (by simp; omega) ?_
        rintro S C ⟨nodes, h8⟩ hC
        obtain ⟨c, l, h9, h10, rfl⟩ := hC.loop_only
        exact ⟨_, .loop h1 h2 h3 h4 h8 h9 h10⟩
  | _, _, .function (t := t) (i := i) (ps := ps) (body := body) (c := c) h1 h2 h3 hb h4, P, M, hS, hP => by
    have ih := BlockG.close hb
    have hS : ((t :: (i.toks ++ ps)) :: body ++ [[c]]) ++ [[]] = P ++ M := by simpa using hS
    rcases start_last hS with h7 | ⟨m, h7⟩
    · subst h7; exact .of ⟨_, by simpa using NodeG.function h1 h2 h3 hb h4⟩
    · rcases start_last h7 with h8 | ⟨m, h8⟩
      · subst h8
        refine ⟨[.empty], by simp, fun C hC => ?_⟩
        rw [hC.empty_only]
        exact ⟨_, by simpa using NodeG.function h1 h2 h3 hb h4⟩
      · cases P with
        | nil => exact absurd rfl hP
        | cons p P =>
          simp only [List.cons_append, List.cons.injEq] at h8
          obtain ⟨rfl, h9⟩ := h8
          refine (ih _ _ h9).wrap [.function, .empty] (pre := [_]) rfl (by simp; omega) ?_
          rintro S C ⟨nodes, h8⟩ hC
          obtain ⟨c, h9, rfl⟩ := hC.function_empty
          exact ⟨_, .function h1 h2 h3 h8 h9⟩
  | _, _, .switch (t := t) (q := q) (cases := cs) (dflt := dflt) (c := c) h1 h2 h3 h4 h5, P, M, hS, hP => by
    have ih1 := OmgsG.close h3
    have ih2 := OmgWtfG.close h4
    have hS : ([t, q] :: (cs ++ dflt) ++ [[c]]) ++ [[]] = P ++ M := by simpa using hS
    rcases start_last hS with h7 | ⟨m, h7⟩
    · subst h7; exact .of ⟨_, by simpa using NodeG.switch h1 h2 h3 h4 h5⟩
    · rcases start_last h7 with h8 | ⟨m, h8⟩
      · subst h8
        refine ⟨[.empty], by simp, fun C hC => ?_⟩
        rw [hC.empty_only]
        exact ⟨_, by simpa using NodeG.switch h1 h2 h3 h4 h5⟩
      · cases P with
        | nil => exact absurd rfl hP
        | cons p P =>
          simp only [List.cons_append, List.cons.injEq] at h8
          obtain ⟨rfl, h9⟩ := h8
          rcases start_append h9 with ⟨m, h10⟩ | ⟨p, h10, h11⟩
          · refine (ih1 _ _ h10).wrap [.oic, .empty] (pre := [_]) rfl (by simp; omega) ?_
            rintro S C ⟨omgs, h8⟩ hC
            obtain ⟨c, h9, rfl⟩ := hC.oic_empty
            exact ⟨_, by simpa using NodeG.switch h1 h2 h8 .none h9⟩
          · refine (ih2 _ _ h11).wrap [.oic, .empty] (pre := _ :: _) (by rw [h10]; rfl) (by simp [h10]; omega) ?_
            rintro S C ⟨omgs, h8⟩ hC
            obtain ⟨c, h9, rfl⟩ := hC.oic_empty
            exact ⟨_, by simpa using NodeG.switch h1 h2 h3 h8 h9⟩
  | _, _, .conditional (t := t) (q := q) (yes := yes) (maybe := maybe) (no := no) (c := c) h1 h2 h3 h4 h5 h6,
      P, M, hS, hP => by
    have ih1 := YaRlyG.close h3
    have ih2 := MebbesG.close h4
    have ih3 := NoWaiG.close h5
    have hS : ([t, q] :: (yes ++ (maybe ++ no))) ++ [[c]] = P ++ M := by simpa using hS
    rcases start_last hS with h7 | ⟨m, h7⟩
    · subst h7; exact .of ⟨_, by simpa using NodeG.conditional h1 h2 h3 h4 h5 h6⟩
    · cases P with
      | nil => exact absurd rfl hP
      | cons p P =>
        simp only [List.cons_append, List.cons.injEq] at h7
        obtain ⟨rfl, h7⟩ := h7
        rcases start_append h7 with ⟨m, h10⟩ | ⟨p, h10, h11⟩
        · refine (ih1 _ _ h10).wrap [.oic] (pre := [_]) rfl (by simp; omega) ?_
          rintro S C ⟨yaRly, h8⟩ hC
          obtain ⟨c, h9, rfl⟩ := hC.oic_only
          exact ⟨_, NodeG.conditional h1 h2 h8 .nil .none h9⟩
        · rcases start_append h11 with ⟨m, h12⟩ | ⟨p', h12, h13⟩
          · refine (ih2 _ _ h12).wrap [.oic] (pre := _ :: _) (by rw [h10]; rfl) (by simp [h10]; omega) ?_
            rintro S C ⟨mebbes, h8⟩ hC
            obtain ⟨c, h9, rfl⟩ := hC.oic_only
            exact ⟨_, by simpa using NodeG.conditional h1 h2 h3 h8 .none h9⟩
          · refine (ih3 _ _ h13).wrap [.oic] (pre := [t, q] :: (yes ++ maybe)) (by rw [h10, h12]; simp)
              (by simp [h10, h12]; omega) ?_
            rintro S C ⟨noWai, h8⟩ hC
            obtain ⟨c, h9, rfl⟩ := hC.oic_only
            exact ⟨_, by simpa using NodeG.conditional h1 h2 h3 h4 h8 h9⟩

theorem OmgsG.close : ∀ {S : List (List Token)} {omgs : List WtfOmg}, OmgsG S omgs → ∀ P M, S = P ++ M →
    CanClose (fun S => ∃ n, OmgsG S n) (2 * P.length) P
  | _, _, .nil, P, M, hS => by
    simp only [List.nil_eq, List.append_eq_nil_iff] at hS
    rw [hS.1]; exact .of ⟨_, .nil⟩
  | _, _, .cons h1 h2 hb hr, P, M, hS => by
    have ih := BlockG.close hb
    have ih2 := OmgsG.close hr
    cases P with
    | nil => exact .of ⟨_, .nil⟩
    | cons p P =>
      simp only [List.cons_append, List.cons.injEq] at hS
      obtain ⟨rfl, hS⟩ := hS
      rcases start_append hS with ⟨m, h7⟩ | ⟨p, h7, h8⟩
      · refine (ih _ _ h7).wrap [] (pre := [_]) rfl (by simp; omega) ?_
        rintro S C ⟨nodes, h8⟩ hC
        cases hC
        exact ⟨_, by simpa using OmgsG.cons h1 h2 h8 .nil⟩
      · refine (ih2 _ _ h8).wrap [] (pre := _ :: _) (by rw [h7]; rfl) (by simp [h7]; omega) ?_
        rintro S C ⟨nodes, h8⟩ hC
        cases hC
        exact ⟨_, by simpa using OmgsG.cons h1 h2 hb h8⟩

theorem OmgWtfG.close : ∀ {S : List (List Token)} {o : Option WtfOmgWtf}, OmgWtfG S o → ∀ P M, S = P ++ M →
    CanClose (fun S => ∃ n, OmgWtfG S n) (2 * P.length) P
  | _, _, .none, P, M, hS => by
    simp only [List.nil_eq, List.append_eq_nil_iff] at hS
    rw [hS.1]; exact .of ⟨_, .none⟩
  | _, _, .some h1 hb, P, M, hS => by
    have ih := BlockG.close hb
    cases P with
    | nil => exact .of ⟨_, .none⟩
    | cons p P =>
      simp only [List.cons_append, List.cons.injEq] at hS
      obtain ⟨rfl, hS⟩ := hS
      refine (ih _ _ hS).wrap [] (pre := [_]) rfl (by simp; omega) ?_
      rintro S C ⟨nodes, h8⟩ hC
      cases hC
      exact ⟨_, by simpa using OmgWtfG.some h1 h8⟩

theorem YaRlyG.close : ∀ {S : List (List Token)} {o : Option YaRly}, YaRlyG S o → ∀ P M, S = P ++ M →
    CanClose (fun S => ∃ n, YaRlyG S n) (2 * P.length) P
  | _, _, .none, P, M, hS => by
    simp only [List.nil_eq, List.append_eq_nil_iff] at hS
    rw [hS.1]; exact .of ⟨_, .none⟩
  | _, _, .some h1 hb, P, M, hS => by
    have ih := BlockG.close hb
    cases P with
    | nil => exact .of ⟨_, .none⟩
    | cons p P =>
      simp only [List.cons_append, List.cons.injEq] at hS
      obtain ⟨rfl, hS⟩ := hS
      refine (ih _ _ hS).wrap [] (pre := [_]) rfl (by simp; omega) ?_
      rintro S C ⟨nodes, h8⟩ hC
      cases hC
      exact ⟨_, by simpa using YaRlyG.some h1 h8⟩

theorem MebbesG.close : ∀ {S : List (List Token)} {ms : List Mebbe}, MebbesG S ms → ∀ P M, S = P ++ M →
    CanClose (fun S => ∃ n, MebbesG S n) (2 * P.length) P
  | _, _, .nil, P, M, hS => by
    simp only [List.nil_eq, List.append_eq_nil_iff] at hS
    rw [hS.1]; exact .of ⟨_, .nil⟩
  | _, _, .cons h1 h2 hb hr, P, M, hS => by
    have ih := BlockG.close hb
    have ih2 := MebbesG.close hr
    cases P with
    | nil => exact .of ⟨_, .nil⟩
    | cons p P =>
      simp only [List.cons_append, List.cons.injEq] at hS
      obtain ⟨rfl, hS⟩ := hS
      rcases start_append hS with ⟨m, h7⟩ | ⟨p, h7, h8⟩
      · refine (ih _ _ h7).wrap [] (pre := [_]) rfl (by simp; omega) ?_
        rintro S C ⟨nodes, h8⟩ hC
        cases hC
        exact ⟨_, by simpa using MebbesG.cons h1 h2 h8 .nil⟩
      · refine (ih2 _ _ h8).wrap [] (pre := _ :: _) (by rw [h7]; rfl) (by simp [h7]; omega) ?_
        rintro S C ⟨nodes, h8⟩ hC
        cases hC
        exact ⟨_, by simpa using MebbesG.cons h1 h2 hb h8⟩

theorem NoWaiG.close : ∀ {S : List (List Token)} {o : Option NoWai}, NoWaiG S o → ∀ P M, S = P ++ M →
    CanClose (fun S => ∃ n, NoWaiG S n) (2 * P.length) P
  | _, _, .none, P, M, hS => by
    simp only [List.nil_eq, List.append_eq_nil_iff] at hS
    rw [hS.1]; exact .of ⟨_, .none⟩
  | _, _, .some h1 hb, P, M, hS => by
    have ih := BlockG.close hb
    cases P with
    | nil => exact .of ⟨_, .none⟩
    | cons p P =>
      simp only [List.cons_append, List.cons.injEq] at hS
      obtain ⟨rfl, hS⟩ := hS
      refine (ih _ _ hS).wrap [] (pre := [_]) rfl (by simp; omega) ?_
      rintro S C ⟨nodes, h8⟩ hC
      cases hC
      exact ⟨_, by simpa using NoWaiG.some h1 h8⟩

theorem BlockG.close : ∀ {S : List (List Token)} {nodes : List Node}, BlockG S nodes → ∀ P M, S = P ++ M →
    CanClose (fun S => ∃ n, BlockG S n) (2 * P.length + 1) P
  | _, _, .nodes hn hr, P, M, hS => by
    have ih := NodeG.close hn
    have ih2 := NodesG.close hr
    cases P with
    | nil =>
      refine ⟨[.empty], by simp, fun C hC => ?_⟩
      rw [hC.empty_only]
      exact ⟨_, .skip .nil⟩
    | cons p P =>
      rcases start_append hS with ⟨m, h7⟩ | ⟨q, h7, h8⟩
      · refine (ih _ _ h7 (by simp)).mono (by omega) ?_
        rintro S ⟨node, h⟩
        exact ⟨_, by simpa using BlockG.nodes h .nil⟩
      · refine (ih2 _ _ h8).wrap [] h7 (by simp [h7]; omega) ?_
        rintro S C ⟨nodes, h8⟩ hC
        cases hC
        exact ⟨_, by simpa using BlockG.nodes hn h8⟩
  | _, _, .skip hr, P, M, hS => by
    have ih2 := NodesG.close hr
    cases P with
    | nil =>
      refine ⟨[.empty], by simp, fun C hC => ?_⟩
      rw [hC.empty_only]
      exact ⟨_, .skip .nil⟩
    | cons p P =>
      simp only [List.cons_append, List.cons.injEq] at hS
      obtain ⟨rfl, hS⟩ := hS
      refine (ih2 _ _ hS).wrap [] (pre := [_]) rfl (by simp; omega) ?_
      rintro S C ⟨nodes, h8⟩ hC
      cases hC
      exact ⟨_, by simpa using BlockG.skip h8⟩

theorem NodesG.close : ∀ {S : List (List Token)} {nodes : List Node}, NodesG S nodes → ∀ P M, S = P ++ M →
    CanClose (fun S => ∃ n, NodesG S n) (2 * P.length + 1) P
  | _, _, .nil, P, M, hS => by
    simp only [List.nil_eq, List.append_eq_nil_iff] at hS
    rw [hS.1]; exact .of ⟨_, .nil⟩
  | _, _, .cons hn hr, P, M, hS => by
    have ih := NodeG.close hn
    have ih2 := NodesG.close hr
    cases P with
    | nil => exact .of ⟨_, .nil⟩
    | cons p P =>
      rcases start_append hS with ⟨m, h7⟩ | ⟨q, h7, h8⟩
      · refine (ih _ _ h7 (by simp)).mono (by omega) ?_
        rintro S ⟨node, h⟩
        exact ⟨_, by simpa using NodesG.cons h .nil⟩
      · refine (ih2 _ _ h8).wrap [] h7 (by simp [h7]; omega) ?_
        rintro S C ⟨nodes, h8⟩ hC
        cases hC
        exact ⟨_, by simpa using NodesG.cons hn h8⟩

end

end Lol
