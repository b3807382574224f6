import Verif.Parser.RetouchLemmas
import Verif.Props.ParserMap
import Verif.Props.ParserProgram
import Verif.Props.SourceText

/-! # `AN` and the last `MKAY` of a statement may be left out (C96) -/

namespace Lol

/-! ## Lemmas -/

mutual

theorem Node.errorFree_map (f : Token → Token) : (node : Node) → ((node.map f).ErrorFree ↔ node.ErrorFree)
  | .iHasA _ | .hai _ | .bukkitSetSlot _ | .variableAssignment _ | .visible _ | .foundYr _ | .iIz _ | .gtfo _
  | .gimmeh _ | .expression _ | .kThxBye _ => by simp [Node.ErrorFree, Node.map]
  | .astError e => by simp [Node.ErrorFree, Node.map]
  | .imInYr _ _ _ _ body _ => by simp [Node.ErrorFree, Node.map, errorFreeBlock_map f body]
  | .howIzI _ _ _ body => by simp [Node.ErrorFree, Node.map, errorFreeBlock_map f body]
  | .wtf _ omgs o => by simp [Node.ErrorFree, Node.map, errorFreeOmgs_map f omgs, errorFreeOmgWtf_map f o]
  | .oRly _ y n m => by
    simp [Node.ErrorFree, Node.map, errorFreeYaRly_map f y, errorFreeMebbes_map f m, errorFreeNoWai_map f n]

theorem errorFreeOmgs_map (f : Token → Token) : (omgs : List WtfOmg) →
    (errorFreeOmgs (mapOmgs f omgs) ↔ errorFreeOmgs omgs)
  | [] => by simp [errorFreeOmgs, mapOmgs]
  | .mk _ _ b :: rest => by simp [errorFreeOmgs, mapOmgs, errorFreeBlock_map f b, errorFreeOmgs_map f rest]

theorem errorFreeOmgWtf_map (f : Token → Token) : (o : Option WtfOmgWtf) →
    (errorFreeOmgWtf (mapOmgWtf f o) ↔ errorFreeOmgWtf o)
  | none => by simp [errorFreeOmgWtf, mapOmgWtf]
  | some (.mk _ b) => by simp [errorFreeOmgWtf, mapOmgWtf, errorFreeBlock_map f b]

theorem errorFreeYaRly_map (f : Token → Token) : (o : Option YaRly) →
    (errorFreeYaRly (mapYaRly f o) ↔ errorFreeYaRly o)
  | none => by simp [errorFreeYaRly, mapYaRly]
  | some (.mk _ b) => by simp [errorFreeYaRly, mapYaRly, errorFreeBlock_map f b]

theorem errorFreeMebbes_map (f : Token → Token) : (mebbes : List Mebbe) →
    (errorFreeMebbes (mapMebbes f mebbes) ↔ errorFreeMebbes mebbes)
  | [] => by simp [errorFreeMebbes, mapMebbes]
  | .mk _ _ b :: rest => by simp [errorFreeMebbes, mapMebbes, errorFreeBlock_map f b, errorFreeMebbes_map f rest]

theorem errorFreeNoWai_map (f : Token → Token) : (o : Option NoWai) →
    (errorFreeNoWai (mapNoWai f o) ↔ errorFreeNoWai o)
  | none => by simp [errorFreeNoWai, mapNoWai]
  | some (.mk _ b) => by simp [errorFreeNoWai, mapNoWai, errorFreeBlock_map f b]

theorem errorFreeBlock_map (f : Token → Token) : (nodes : List Node) →
    (errorFreeBlock (mapBlock f nodes) ↔ errorFreeBlock nodes)
  | [] => by simp [errorFreeBlock, mapBlock]
  | node :: rest => by simp [errorFreeBlock, mapBlock, Node.errorFree_map f node, errorFreeBlock_map f rest]

end

theorem getD_map_nil {α β : Type} {f : List α → List β} (hf : f [] = []) (L : List (List α)) (k : Nat) :
    (L.map f).getD k [] = f (L.getD k []) := by
  rw [List.getD_eq_getElem?_getD, List.getD_eq_getElem?_getD, List.getElem?_map]
  cases L[k]? <;> simp [hf]

/-- The statements with `f` done to every one of them. -/
def Stmts.each (f : List Token → List Token) (s : Stmts) : Stmts := ⟨f s.cur, s.later.map f⟩

theorem Stmts.each_getD {f : List Token → List Token} (hf : f [] = []) (s : Stmts) (k : Nat) :
    (s.each f).all.getD k [] = f (s.all.getD k []) := by
  rw [show (s.each f).all = s.all.map f from rfl, getD_map_nil hf]

theorem Stmts.map_getD (g : Token → Token) (s : Stmts) (k : Nat) :
    (s.map g).all.getD k [] = (s.all.getD k []).map g := by
  rw [show (s.map g).all = s.all.map (List.map g) from rfl, getD_map_nil rfl]

theorem parse_each {f : List Token → List Token} {R : Retouch} (H : Fits f R) {tokens : List Token}
    {nodes : Block} (h : parse tokens = .ok nodes) (he : errorFreeBlock nodes) :
    parseStmts ((split tokens).each f) = .ok (retouchBlock R nodes) ∧ errorFreeBlock (retouchBlock R nodes) := by
  obtain ⟨L, h1, h2, h3⟩ := (C38_error_free_iff tokens nodes).1 ⟨h, he⟩
  have h4 := h1.retouch H
  refine ⟨?_, h4.errorFree⟩
  obtain ⟨s', h5, h6⟩ := (spans_iff (s := (split tokens).each f) (L := L.map f)).2
    ⟨fun i hi => by
        rw [List.length_map] at hi
        have := h2 i hi
        rw [stmt] at this
        rw [Stmts.each_getD H.nil, getD_map_nil H.nil, this],
      by
        rw [stmt] at h3
        rw [Stmts.each_getD H.nil, List.length_map, h3, H.nil]⟩
  exact parseStmts_complete h4 h5 h6

theorem parse_retouch {f : List Token → List Token} {R : Retouch} (H : Fits f R) {tokens tokens' : List Token}
    {nodes : Block} (h : parse tokens = .ok nodes) (he : errorFreeBlock nodes)
    (hs : ∀ k, (stmt tokens' k).map Token.unplaced = (f (stmt tokens k)).map Token.unplaced) :
    ∃ nodes', parse tokens' = .ok nodes' ∧ errorFreeBlock nodes' ∧
      mapBlock Token.unplaced nodes' = mapBlock Token.unplaced (retouchBlock R nodes) := by
  obtain ⟨h7, h4⟩ := parse_each H h he
  have hf : KeepsKind Token.unplaced := fun _ => rfl
  have h8 : mapOutcome Token.unplaced (parse tokens') = .ok (mapBlock Token.unplaced (retouchBlock R nodes)) := by
    rw [parse_eq, ← parseStmts_map hf]
    have := parseStmts_map hf ((split tokens).each f)
    rw [h7] at this
    refine Eq.trans ?_ this
    apply parseStmts_congr
    intro k
    rw [Stmts.map_getD, Stmts.map_getD, Stmts.each_getD H.nil]
    exact hs k
  cases hp : parse tokens' with
  | ok nodes' =>
    rw [hp] at h8
    have h9 := Out.ok.inj h8
    refine ⟨nodes', rfl, ?_, h9⟩
    rw [← errorFreeBlock_map Token.unplaced, h9, errorFreeBlock_map]
    exact h4
  | panic p => rw [hp] at h8; cases h8
  | outOfFuel => rw [hp] at h8; cases h8

theorem retouch_same {f : List Token → List Token} {R : Retouch} (H : Fits f R) {tokens tokens' : List Token}
    {nodes nodes' : Block} (h : parse tokens = .ok nodes) (he : errorFreeBlock nodes) (h' : parse tokens' = .ok nodes')
    (he' : errorFreeBlock nodes')
    (hs : ∀ k, (f (stmt tokens' k)).map Token.unplaced = (f (stmt tokens k)).map Token.unplaced) :
    mapBlock Token.unplaced (retouchBlock R nodes') = mapBlock Token.unplaced (retouchBlock R nodes) := by
  have hf : KeepsKind Token.unplaced := fun _ => rfl
  have h1 := parseStmts_map hf ((split tokens).each f)
  have h2 := parseStmts_map hf ((split tokens').each f)
  rw [(parse_each H h he).1] at h1
  rw [(parse_each H h' he').1] at h2
  have h3 : parseStmts (((split tokens').each f).map Token.unplaced) =
      parseStmts (((split tokens).each f).map Token.unplaced) := by
    apply parseStmts_congr
    intro k
    rw [Stmts.map_getD, Stmts.map_getD, Stmts.each_getD H.nil, Stmts.each_getD H.nil]
    exact hs k
  rw [h1, h2] at h3
  exact Out.ok.inj h3

theorem stmts_each {f g : List Token → List Token} (hf : f [] = []) (hg : g [] = []) {ts us : List Token}
    (h : (split us).all.map g = (split ts).all.map f) (k : Nat) : g (stmt us k) = f (stmt ts k) := by
  rw [stmt, stmt, ← getD_map_nil hf, ← getD_map_nil hg, h]

/-! ## C96 -/

/-- **C96** An `AN` may be left out: when a program is parsed without errors, then so is every program whose statements
are its statements without some `AN`s, except that an `AN` before a `YR` must stay; and up to positions the tree is the
same, without these `AN`s. -/
theorem C96_an (p : Token → Bool) {tokens tokens' : List Token} {nodes : Block} (h : parse tokens = .ok nodes)
    (he : errorFreeBlock nodes)
    (hs : ∀ k, (stmt tokens' k).map Token.unplaced = (dropAn p (stmt tokens k)).map Token.unplaced) :
    ∃ nodes', parse tokens' = .ok nodes' ∧ errorFreeBlock nodes' ∧
      mapBlock Token.unplaced nodes' = mapBlock Token.unplaced (retouchBlock (withoutAn p) nodes) :=
  parse_retouch (fits_an p) h he hs

-- Of three `AN`s the one between the numbers is left out.
set_option maxRecDepth 8000 in
example : ∃ tokens tokens' nodes, tokenize chars!"a R SUM OF 1 AN 2\nI IZ f YR a AN YR b MKAY\n" = .ok (.ok tokens) ∧
    tokenize chars!"a R SUM OF 1 2\nI IZ f YR a AN YR b MKAY\n" = .ok (.ok tokens') ∧
    parse tokens = .ok nodes ∧ errorFreeBlock nodes ∧
    ∀ k, (stmt tokens' k).map Token.unplaced = (dropAn (fun _ => true) (stmt tokens k)).map Token.unplaced := by
  refine ⟨_, _, _, rfl, rfl, rfl, ?_, ?_⟩
  · simp [errorFreeBlock, Node.ErrorFree]
  · exact stmts_each (f := fun st => (dropAn (fun _ => true) st).map Token.unplaced) rfl rfl (by decide +kernel)

/-- **C96** So two programs without errors that differ only in such `AN`s have trees that differ only in them. -/
theorem C96_an_same {tokens tokens' : List Token} {nodes nodes' : Block} (h : parse tokens = .ok nodes)
    (he : errorFreeBlock nodes) (h' : parse tokens' = .ok nodes') (he' : errorFreeBlock nodes')
    (hs : ∀ k, (dropAn (fun _ => true) (stmt tokens' k)).map Token.unplaced =
      (dropAn (fun _ => true) (stmt tokens k)).map Token.unplaced) :
    mapBlock Token.unplaced (retouchBlock (withoutAn fun _ => true) nodes') =
      mapBlock Token.unplaced (retouchBlock (withoutAn fun _ => true) nodes) :=
  retouch_same (fits_an _) h he h' he' hs

-- One program with the first `AN` only, one with the second only.
set_option maxRecDepth 8000 in
example : ∃ tokens tokens' nodes nodes', tokenize chars!"ALL OF a AN b c\n" = .ok (.ok tokens) ∧
    tokenize chars!"ALL OF a b AN c\n" = .ok (.ok tokens') ∧ parse tokens = .ok nodes ∧ errorFreeBlock nodes ∧
    parse tokens' = .ok nodes' ∧ errorFreeBlock nodes' ∧
    ∀ k, (dropAn (fun _ => true) (stmt tokens' k)).map Token.unplaced =
      (dropAn (fun _ => true) (stmt tokens k)).map Token.unplaced := by
  refine ⟨_, _, _, _, rfl, rfl, rfl, ?_, rfl, ?_, ?_⟩
  · simp [errorFreeBlock, Node.ErrorFree]
  · simp [errorFreeBlock, Node.ErrorFree]
  · exact stmts_each (f := fun st => (dropAn (fun _ => true) st).map Token.unplaced)
      (g := fun st => (dropAn (fun _ => true) st).map Token.unplaced) rfl rfl (by decide +kernel)

/-- **C96** A `MKAY` at the end of a statement may be left out: when a program is parsed without errors, then so is
every program whose statements are its statements without some last `MKAY`s, except that the one of `I IZ` must stay;
and up to positions the tree is the same, without these `MKAY`s. -/
theorem C96_mkay (p : Token → Bool) {tokens tokens' : List Token} {nodes : Block} (h : parse tokens = .ok nodes)
    (he : errorFreeBlock nodes)
    (hs : ∀ k, (stmt tokens' k).map Token.unplaced = (dropMkay p (stmt tokens k)).map Token.unplaced) :
    ∃ nodes', parse tokens' = .ok nodes' ∧ errorFreeBlock nodes' ∧
      mapBlock Token.unplaced nodes' = mapBlock Token.unplaced (retouchBlock (withoutMkay p) nodes) :=
  parse_retouch (fits_mkay p) h he hs

-- The `MKAY` of `SMOOSH` is left out, not that of `I IZ`.
set_option maxRecDepth 8000 in
example : ∃ tokens tokens' nodes, tokenize chars!"VISIBLE x SMOOSH a AN b MKAY\nI IZ f YR a MKAY\n" = .ok (.ok tokens) ∧
    tokenize chars!"VISIBLE x SMOOSH a AN b\nI IZ f YR a MKAY\n" = .ok (.ok tokens') ∧
    parse tokens = .ok nodes ∧ errorFreeBlock nodes ∧
    ∀ k, (stmt tokens' k).map Token.unplaced = (dropMkay (fun _ => true) (stmt tokens k)).map Token.unplaced := by
  refine ⟨_, _, _, rfl, rfl, rfl, ?_, ?_⟩
  · simp [errorFreeBlock, Node.ErrorFree]
  · exact stmts_each (f := fun st => (dropMkay (fun _ => true) st).map Token.unplaced) rfl rfl (by decide +kernel)

-- Without the `AN` before `YR`, and without the `MKAY` of `I IZ`, there are errors.
example : ((tokenizeAndParse chars!"I IZ f YR a YR b MKAY\n") matches .ok (.ok [.astError _, .astError _])) ∧
    ((tokenizeAndParse chars!"I IZ f YR a AN YR b\n") matches .ok (.ok [.astError _])) ∧
    ((tokenizeAndParse chars!"I IZ f YR a AN YR b MKAY\n") matches .ok (.ok [.iIz _])) := by
  refine ⟨rfl, rfl, rfl⟩

end Lol
