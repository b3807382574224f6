import Verif.Parser.SizeLemmas

/-! # Lemmas: nodes at different places hold different tokens -/

namespace Lol

/-- The nodes `L` hold tokens out of `T`, at least one each, and no two of them hold the same tokens. -/
def Places (L : List Node) (T : List Token) : Prop :=
  L.Pairwise (fun a b => a.toks ≠ b.toks) ∧ ∀ a ∈ L, a.toks ≠ [] ∧ ∀ t ∈ a.toks, t ∈ T

theorem Places.nil {T : List Token} : Places [] T := ⟨.nil, fun _ h => absurd h List.not_mem_nil⟩

theorem Places.mono {L : List Node} {T T' : List Token} (h : Places L T) (hs : ∀ t ∈ T, t ∈ T') : Places L T' :=
  ⟨h.1, fun a ha => ⟨(h.2 a ha).1, fun t ht => hs t ((h.2 a ha).2 t ht)⟩⟩

theorem Places.append {L L' : List Node} {T T' : List Token} (h : Places L T) (h' : Places L' T')
    (hd : ∀ t ∈ T, t ∉ T') : Places (L ++ L') (T ++ T') := by
  refine ⟨List.pairwise_append.2 ⟨h.1, h'.1, ?_⟩, ?_⟩
  · intro a ha b hb he
    obtain ⟨h1, h2⟩ := h.2 a ha
    obtain ⟨t, ht⟩ := List.exists_mem_of_ne_nil _ h1
    exact hd t (h2 t ht) ((h'.2 b hb).2 t (he ▸ ht))
  · intro a ha
    rcases List.mem_append.1 ha with ha | ha
    · exact ⟨(h.2 a ha).1, fun t ht => List.mem_append_left _ ((h.2 a ha).2 t ht)⟩
    · exact ⟨(h'.2 a ha).1, fun t ht => List.mem_append_right _ ((h'.2 a ha).2 t ht)⟩

theorem Places.one {x : Node} (h : x.toks ≠ []) : Places [x] x.toks :=
  ⟨List.pairwise_singleton .., fun a ha => by
    rw [List.mem_singleton] at ha; subst ha; exact ⟨h, fun t ht => ht⟩⟩

theorem Places.top {x : Node} {L : List Node} {T : List Token} {t : Token} (h : Places L T) (ht : t ∈ x.toks)
    (hn : t ∉ T) (hs : ∀ u ∈ T, u ∈ x.toks) : Places (x :: L) x.toks := by
  refine ⟨List.pairwise_cons.2 ⟨fun a ha he => hn ((h.2 a ha).2 t (he ▸ ht)), h.1⟩, ?_⟩
  intro a ha
  rcases List.mem_cons.1 ha with rfl | ha
  · exact ⟨List.ne_nil_of_mem ht, fun t ht => ht⟩
  · exact ⟨(h.2 a ha).1, fun u hu => hs u ((h.2 a ha).2 u hu)⟩

theorem nodup_append_iff {a b : List Token} : (a ++ b).Nodup ↔ a.Nodup ∧ b.Nodup ∧ ∀ t ∈ a, t ∉ b := by
  rw [List.nodup_append]
  exact ⟨fun ⟨h1, h2, h3⟩ => ⟨h1, h2, fun t ht hb => h3 t ht t hb rfl⟩,
    fun ⟨h1, h2, h3⟩ => ⟨h1, h2, fun t ht u hu he => h3 t ht (he ▸ hu)⟩⟩

mutual

theorem Node.places : (x : Node) → Solid x.nodes → x.toks.Nodup → Places x.nodes x.toks
  | .iHasA n, _, _ => by rw [Node.nodes]; exact .one (by simp [Node.toks])
  | .hai n, _, _ => by rw [Node.nodes]; exact .one (by simp [Node.toks])
  | .imInYr t label op cond body endLabel, h, hd => by
    rw [Node.nodes] at h ⊢
    rw [Node.toks, List.nodup_cons, List.nodup_cons] at hd
    have h2 := nodup_append_iff.1 (nodup_append_iff.1 (nodup_append_iff.1 hd.2.2).2.1).2.1
    have hb := allNodes_places body (fun e he => h e (List.mem_cons_of_mem _ he)) h2.1
    refine hb.top (t := t) (by rw [Node.toks]; simp) (fun ht => hd.1 (by simp [ht])) fun u hu => ?_
    rw [Node.toks]; simp [hu]
  | .bukkitSetSlot n, _, _ => by
    rw [Node.nodes]
    obtain ⟨t, ts, ht⟩ := n.slotName.toks_ne
    exact .one (by simp [Node.toks, ht])
  | .variableAssignment n, _, _ => by rw [Node.nodes]; exact .one (by simp [Node.toks])
  | .visible n, _, _ => by rw [Node.nodes]; exact .one (by simp [Node.toks])
  | .foundYr n, _, _ => by rw [Node.nodes]; exact .one (by simp [Node.toks])
  | .wtf t omgs omgWtf, h, hd => by
    rw [Node.nodes] at h ⊢
    rw [Node.toks, List.nodup_cons, nodup_append_iff] at hd
    have h1 := places_omgs omgs (fun e he => h e (by simp [he])) hd.2.1
    have h2 := places_omgWtf omgWtf (fun e he => h e (by simp [he])) hd.2.2.1
    refine (h1.append h2 hd.2.2.2).top (t := t) (by rw [Node.toks]; simp) hd.1 fun u hu => ?_
    rw [Node.toks]; exact List.mem_cons_of_mem _ hu
  | .oRly t yaRly noWai mebbes, h, hd => by
    rw [Node.nodes] at h ⊢
    rw [Node.toks, List.nodup_cons, nodup_append_iff, nodup_append_iff] at hd
    have h1 := places_yaRly yaRly (fun e he => h e (by simp [he])) hd.2.1
    have h2 := places_mebbes mebbes (fun e he => h e (by simp [he])) hd.2.2.1.1
    have h3 := places_noWai noWai (fun e he => h e (by simp [he])) hd.2.2.1.2.1
    refine (h1.append (h2.append h3 hd.2.2.1.2.2) hd.2.2.2).top (t := t) (by rw [Node.toks]; simp) hd.1 fun u hu => ?_
    rw [Node.toks]; exact List.mem_cons_of_mem _ hu
  | .iIz n, _, _ => by rw [Node.nodes]; exact .one (by simp [Node.toks])
  | .howIzI t name params body, h, hd => by
    rw [Node.nodes] at h ⊢
    rw [Node.toks, List.nodup_cons] at hd
    have h2 := (nodup_append_iff.1 (nodup_append_iff.1 hd.2).2.1).2.1
    have hb := allNodes_places body (fun e he => h e (List.mem_cons_of_mem _ he)) h2
    refine hb.top (t := t) (by rw [Node.toks]; simp) (fun ht => hd.1 (by simp [ht])) fun u hu => ?_
    rw [Node.toks]; simp [hu]
  | .gtfo t, _, _ => by rw [Node.nodes]; exact .one (by simp [Node.toks])
  | .gimmeh n, _, _ => by rw [Node.nodes]; exact .one (by simp [Node.toks])
  | .expression e, _, _ => by
    rw [Node.nodes]
    obtain ⟨t, ts, ht⟩ := e.toks_ne
    exact .one (by simp [Node.toks, ht])
  | .astError e, h, _ => by
    rw [Node.nodes] at h ⊢
    exact .one (by rw [Node.toks]; exact h e (by simp))
  | .kThxBye t, _, _ => by rw [Node.nodes]; exact .one (by simp [Node.toks])

theorem places_omgs : (l : List WtfOmg) → Solid (nodesOmgs l) → (toksOmgs l).Nodup → Places (nodesOmgs l) (toksOmgs l)
  | [], _, _ => by rw [nodesOmgs]; exact .nil
  | .mk t e b :: l, h, hd => by
    rw [nodesOmgs] at h ⊢
    rw [toksOmgs, List.nodup_cons, nodup_append_iff, nodup_append_iff] at hd
    have h1 := allNodes_places b (fun e he => h e (by simp [he])) hd.2.2.1.1
    have h2 := places_omgs l (fun e he => h e (by simp [he])) hd.2.2.1.2.1
    refine (h1.append h2 hd.2.2.1.2.2).mono fun u hu => ?_
    rw [toksOmgs]; exact List.mem_cons_of_mem _ (List.mem_append_right _ hu)

theorem places_omgWtf : (l : Option WtfOmgWtf) → Solid (nodesOmgWtf l) → (toksOmgWtf l).Nodup →
    Places (nodesOmgWtf l) (toksOmgWtf l)
  | none, _, _ => by rw [nodesOmgWtf]; exact .nil
  | some (.mk t b), h, hd => by
    rw [nodesOmgWtf] at h ⊢
    rw [toksOmgWtf, List.nodup_cons] at hd
    refine (allNodes_places b h hd.2).mono fun u hu => ?_
    rw [toksOmgWtf]; exact List.mem_cons_of_mem _ hu

theorem places_yaRly : (l : Option YaRly) → Solid (nodesYaRly l) → (toksYaRly l).Nodup →
    Places (nodesYaRly l) (toksYaRly l)
  | none, _, _ => by rw [nodesYaRly]; exact .nil
  | some (.mk t b), h, hd => by
    rw [nodesYaRly] at h ⊢
    rw [toksYaRly, List.nodup_cons] at hd
    refine (allNodes_places b h hd.2).mono fun u hu => ?_
    rw [toksYaRly]; exact List.mem_cons_of_mem _ hu

theorem places_mebbes : (l : List Mebbe) → Solid (nodesMebbes l) → (toksMebbes l).Nodup →
    Places (nodesMebbes l) (toksMebbes l)
  | [], _, _ => by rw [nodesMebbes]; exact .nil
  | .mk t e b :: l, h, hd => by
    rw [nodesMebbes] at h ⊢
    rw [toksMebbes, List.nodup_cons, nodup_append_iff, nodup_append_iff] at hd
    have h1 := allNodes_places b (fun e he => h e (by simp [he])) hd.2.2.1.1
    have h2 := places_mebbes l (fun e he => h e (by simp [he])) hd.2.2.1.2.1
    refine (h1.append h2 hd.2.2.1.2.2).mono fun u hu => ?_
    rw [toksMebbes]; exact List.mem_cons_of_mem _ (List.mem_append_right _ hu)

theorem places_noWai : (l : Option NoWai) → Solid (nodesNoWai l) → (toksNoWai l).Nodup →
    Places (nodesNoWai l) (toksNoWai l)
  | none, _, _ => by rw [nodesNoWai]; exact .nil
  | some (.mk t b), h, hd => by
    rw [nodesNoWai] at h ⊢
    rw [toksNoWai, List.nodup_cons] at hd
    refine (allNodes_places b h hd.2).mono fun u hu => ?_
    rw [toksNoWai]; exact List.mem_cons_of_mem _ hu

theorem allNodes_places : (b : List Node) → Solid (allNodes b) → (toksBlock b).Nodup →
    Places (allNodes b) (toksBlock b)
  | [], _, _ => by rw [allNodes]; exact .nil
  | x :: b, h, hd => by
    rw [allNodes] at h ⊢
    rw [toksBlock, nodup_append_iff] at hd
    rw [toksBlock]
    exact (x.places (fun e he => h e (by simp [he])) hd.1).append
      (allNodes_places b (fun e he => h e (by simp [he])) hd.2.1) hd.2.2

end

end Lol
