import Verif.Lexer.RenameLemmas
import Verif.Parser.ShapeLemmas
import Verif.Props.Layout
import Verif.Props.Cut

/-! # Other names and strings in a source text (C82) -/

namespace Lol

theorem TokensAt.types {o l : Int} {ps : List Piece} {ts : List Token} (h : TokensAt o l ps ts) :
    ts.map (·.tokenType) = ps.map (·.type) := by
  induction ps generalizing o l ts with
  | nil => cases ts <;> simp_all [TokensAt]
  | cons p ps ih =>
    cases ts with
    | nil => simp [TokensAt] at h
    | cons t ts => simp [h.1, ih h.2.2.2.2]

theorem Renaming.kind {ρ : TokenType → TokenType} (h : Renaming ρ) (t : Token) :
    (t.rename ρ).tokenType.kind = t.tokenType.kind := by
  show (ρ t.tokenType).kind = _
  rcases h t.tokenType with h | ⟨n, n', h1, h2, -⟩ | ⟨s, s', h1, h2, -⟩
  · rw [h]
  · rw [h2, h1]; rfl
  · rw [h2, h1]; rfl

theorem mapOutcome_map {f g : Token → Token} (r : Out Block) : mapOutcome g (mapOutcome f r) = mapOutcome (g ∘ f) r := by
  cases r with
  | ok nodes => simp [mapOutcome, mapBlock_map]
  | panic p => rfl
  | outOfFuel => rfl

theorem steps_rename {ρ : TokenType → TokenType} {o o' l : Int} {ps : List Piece} {ts ts' : List Token}
    (h : TokensAt o l ps ts) (h' : TokensAt o' l (ps.map (Piece.rename ρ)) ts') :
    SameSteps l l (ts.map (Token.rename ρ)) ts' := by
  induction ps generalizing o o' l ts ts' with
  | nil =>
    cases ts <;> cases ts' <;> simp only [TokensAt, List.map_nil] at h h'
    trivial
  | cons p ps ih =>
    cases ts with
    | nil => simp only [TokensAt] at h
    | cons t ts =>
      cases ts' with
      | nil => simp only [TokensAt, List.map_cons] at h'
      | cons t' ts' =>
        obtain ⟨a1, -, -, a4, a5⟩ := h
        obtain ⟨b1, -, -, b4, b5⟩ := h'
        have b4 : t'.range.start.line = l + (p.gap.count '\n' : Nat) := b4
        have b5 : TokensAt _ (l + (p.gap.count '\n' : Nat)) (ps.map (Piece.rename ρ)) ts' := b5
        refine ⟨?_, ?_, ?_⟩
        · show ρ t.tokenType = t'.tokenType
          rw [a1, b1]; rfl
        · show t.range.start.line = l ↔ t'.range.start.line = l
          rw [a4, b4]
        · show SameSteps t.range.start.line t'.range.start.line _ _
          rw [a4, b4]
          exact ih a5 b5

/-! ## C82 -/

/-- **C82** When other names that start with a lower case letter or `_`, and other strings, are put in place of names
and strings of a source text, the tokens are the same with the new names and strings in them. -/
theorem C82_tokens {ρ : TokenType → TokenType} (hρ : Renaming ρ) {ps : List Piece} {tail : Str} {ts : List Token}
    (h : tokenize (layout ps tail) = .ok (.ok ts)) (hat : TokensAt 0 1 ps ts)
    (hs : ∀ t ∈ ts, ∀ s, t.tokenType = .value (.string s) → ∀ c ∈ s, IsAscii c) :
    ∃ ts', tokenize (layout (ps.map (Piece.rename ρ)) tail) = .ok (.ok ts') ∧
      TokensAt 0 1 (ps.map (Piece.rename ρ)) ts' ∧ ts'.map (·.tokenType) = ts.map fun t => ρ t.tokenType := by
  obtain ⟨q, hq⟩ := tokenize_scan h
  have hl := (Lexed.of_tokens hq hat).rename hρ fun p hp s hty => by
    have : p.type ∈ ts.map (·.tokenType) := by rw [hat.types]; exact List.mem_map.2 ⟨p, hp, rfl⟩
    obtain ⟨t, ht, he⟩ := List.mem_map.1 this
    exact hs t ht s (he.trans hty)
  obtain ⟨ts', q', h1, h2⟩ := hl.scan .first
  refine ⟨ts', ?_, h2, ?_⟩
  · rw [tokenize_eq_run, run_scan h1, run_nil]
    simp [prepend]
  · have : (ts.map fun t => ρ t.tokenType) = (ts.map (·.tokenType)).map ρ := by simp
    rw [h2.types, this, hat.types, List.map_map, List.map_map]
    rfl

/-- Puts `kitteh` in place of `x` and a shorter string in place of `a b` (for the examples). -/
private def ren : TokenType → TokenType
  | .identifier n => if n = chars!"x" then .identifier chars!"kitteh" else .identifier n
  | .value (.string s) => if s = chars!"a b" then .value (.string chars!"c") else .value (.string s)
  | ty => ty

private theorem ren_renaming : Renaming ren := by
  intro ty
  cases ty with
  | identifier n =>
    by_cases h : n = chars!"x"
    · subst h
      exact .inr (.inl ⟨_, chars!"kitteh", rfl, rfl, ⟨'k', _, rfl, by decide⟩, by decide +kernel⟩)
    · left; simp [ren, h]
  | value v =>
    cases v with
    | string s =>
      by_cases h : s = chars!"a b"
      · subst h
        refine .inr (.inr ⟨_, chars!"c", rfl, rfl, ⟨?_, ?_⟩, by decide +kernel⟩)
        · intro u v h
          have : '"' ∈ chars!"c" := by rw [h]; simp
          exact absurd this (by decide)
        · intro u h
          have : ':' ∈ chars!"c" := by rw [h]; simp
          exact absurd this (by decide)
      · left; simp [ren, h]
    | _ => exact .inl rfl
  | _ => exact .inl rfl

private def oldPieces : List Piece :=
  [⟨[], chars!"I HAS A", .keyword .I_HAS_A⟩, ⟨chars!" ", chars!"x", .identifier chars!"x"⟩,
    ⟨chars!" ", chars!"ITZ", .keyword .ITZ⟩, ⟨chars!" ", chars!"\"a b\"", .value (.string chars!"a b")⟩,
    ⟨chars!"\n", chars!"VISIBLE", .keyword .VISIBLE⟩, ⟨[], chars!"x", .identifier chars!"x"⟩,
    ⟨[], chars!"!", .exclamationMark⟩]

-- The names and strings of this program are changed, also the name that follows `VISIBLE` directly.
example : layout oldPieces [] = chars!"I HAS A x ITZ \"a b\"\nVISIBLEx!" ∧
    layout (oldPieces.map (Piece.rename ren)) [] = chars!"I HAS A kitteh ITZ \"c\"\nVISIBLEkitteh!" := by
  decide +kernel

example : Renaming ren ∧ ∃ ts, tokenize (layout oldPieces []) = .ok (.ok ts) ∧ TokensAt 0 1 oldPieces ts ∧
    ∀ t ∈ ts, ∀ s, t.tokenType = .value (.string s) → ∀ c ∈ s, IsAscii c := by
  refine ⟨ren_renaming, _, rfl, ?_, ?_⟩
  · simp only [oldPieces, TokensAt]
    decide +kernel
  · intro t ht s h
    have : ∀ t ∈ oldPieces, ∀ s, t.type = .value (.string s) → ∀ c ∈ s, IsAscii c := by
      intro p hp s hs
      simp only [oldPieces, List.mem_cons, List.not_mem_nil, or_false] at hp
      rcases hp with rfl | rfl | rfl | rfl | rfl | rfl | rfl <;> cases hs
      decide +kernel
    simp only [List.mem_cons, List.not_mem_nil, or_false] at ht
    rcases ht with rfl | rfl | rfl | rfl | rfl | rfl | rfl <;> cases h
    decide +kernel

/-- **C82** The new program is parsed as the old one, up to positions, with the new names and strings in the tree; `parse`
panics on both or on none. -/
theorem C82_program {ρ : TokenType → TokenType} (hρ : Renaming ρ) {ps : List Piece} {tail : Str} {ts : List Token}
    (h : tokenize (layout ps tail) = .ok (.ok ts)) (hat : TokensAt 0 1 ps ts)
    (hs : ∀ t ∈ ts, ∀ s, t.tokenType = .value (.string s) → ∀ c ∈ s, IsAscii c) :
    ∃ ts', tokenize (layout (ps.map (Piece.rename ρ)) tail) = .ok (.ok ts') ∧
      mapOutcome Token.unplaced (parse ts') = mapOutcome (fun t => (t.rename ρ).unplaced) (parse ts) := by
  obtain ⟨ts', h1, h2, -⟩ := C82_tokens hρ h hat hs
  refine ⟨ts', h1, ?_⟩
  rw [C65_parse (steps_rename (ρ := ρ) hat h2), C55_map hρ.kind fun t _ u _ => Iff.rfl, mapOutcome_map]
  rfl

example : Renaming ren ∧ (∃ ts, tokenize (layout oldPieces []) = .ok (.ok ts) ∧ TokensAt 0 1 oldPieces ts) ∧
    ∃ nodes, tokenizeAndParse (layout (oldPieces.map (Piece.rename ren)) []) = .ok (.ok nodes) ∧ nodes.length = 2 := by
  refine ⟨ren_renaming, ⟨_, rfl, ?_⟩, _, rfl, by decide +kernel⟩
  simp only [oldPieces, TokensAt]
  decide +kernel

/-- **C82** For source texts: the tree is the same up to positions, with the new names and strings. -/
theorem C82_trees {ρ : TokenType → TokenType} (hρ : Renaming ρ) {ps : List Piece} {tail : Str} {ts : List Token}
    {nodes : Block} (h : tokenize (layout ps tail) = .ok (.ok ts)) (hat : TokensAt 0 1 ps ts)
    (hs : ∀ t ∈ ts, ∀ s, t.tokenType = .value (.string s) → ∀ c ∈ s, IsAscii c)
    (hn : tokenizeAndParse (layout ps tail) = .ok (.ok nodes)) :
    ∃ nodes', tokenizeAndParse (layout (ps.map (Piece.rename ρ)) tail) = .ok (.ok nodes') ∧
      mapBlock Token.unplaced nodes' = mapBlock (fun t => (t.rename ρ).unplaced) nodes := by
  obtain ⟨ts', h1, h2⟩ := C82_program hρ h hat hs
  have hp : parse ts = .ok nodes := by
    unfold tokenizeAndParse at hn
    rw [h] at hn
    change Out.bind (parse ts) _ = _ at hn
    cases hp : parse ts <;> rw [hp] at hn <;> cases hn
    rfl
  rw [hp] at h2
  obtain ⟨nodes', h3, h4⟩ := mapOutcome_eq_ok h2
  refine ⟨nodes', ?_, h4⟩
  unfold tokenizeAndParse
  rw [h1]
  show Out.bind (parse ts') _ = _
  rw [h3]
  rfl

-- The tree of the program above has two nodes.
example : ∃ nodes, tokenizeAndParse (layout oldPieces []) = .ok (.ok nodes) ∧ nodes.length = 2 := by
  refine ⟨_, rfl, ?_⟩
  decide +kernel

/-- **C82** Names in capital letters are different: they can become part of a keyword. -/
theorem C82_capitals : ∃ ts us, tokenize chars!"x HAS A y" = .ok (.ok ts) ∧
    tokenize chars!"I HAS A y" = .ok (.ok us) ∧
    ts.map (·.tokenType) = [.identifier chars!"x", .keyword .HAS_A, .identifier chars!"y"] ∧
    us.map (·.tokenType) = [.keyword .I_HAS_A, .identifier chars!"y"] := by
  refine ⟨_, _, rfl, rfl, ?_⟩
  decide +kernel

end Lol
