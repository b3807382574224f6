import Verif.Parser.GraftSpec
import Verif.Lexer.LayoutLemmas
import Verif.Lexer.SepLemmas

/-! # Helper lemmas: an expression in place of a literal in a source text -/

namespace Lol

theorem layout_put (A R : List Piece) (tail : Str) : layout (A ++ R) tail = layout A (layout R tail) := by
  induction A with
  | nil => rfl
  | cons p A ih => simp [layout, ih]

theorem layout_end (A : List Piece) (x : Str) : layout A x = layout A [] ++ x := by
  induction A with
  | nil => rfl
  | cons p A ih => simp only [layout]; rw [ih]; simp

theorem Lexeme.comment_gap {lex s g l r : Str} (h : Lexeme lex (g ++ (l ++ r)) (.commentSingleLine s))
    (hl : ∃ c r, l = c :: r ∧ ¬ IsWs c) : ∃ g', g = '\n' :: g' := by
  obtain ⟨c, l', rfl, hc⟩ := hl
  generalize hx : g ++ (c :: l' ++ r) = x at h
  cases h with
  | btw body rest h5 h6 =>
    subst hx
    cases g with
    | nil =>
      rcases h6 with h6 | ⟨r', h6⟩
      · cases h6
      · cases h6; exact absurd (by decide) hc
    | cons d g =>
      rcases h6 with h6 | ⟨r', h6⟩
      · cases h6
      · cases h6; exact ⟨g, rfl⟩

theorem Lexed.wider {p : Piece} {A R : List Piece} {tail g : Str} (h : Lexed (p :: (A ++ R)) tail)
    (hg : Apart (p :: A) g) (y : Str) : Widened p.lex (layout (A ++ R) tail) (layout A (g ++ y)) := by
  induction A generalizing p with
  | nil =>
    rcases hg p rfl with hg | ⟨rfl, hj⟩
    · exact .gap [] g _ _ hg
    · exact .space [] [] p.lex _ _ hj (by simp) (.inl .nil)
  | cons q A ih =>
    obtain ⟨-, h2, h3⟩ := h
    have := ih h3 fun x hx => hg x (by rw [List.getLast?_cons_cons]; exact hx)
    exact this.prepend p.lex q.gap (h2.parted h3.1 h3.2.1.head_not_ws)

/-- What follows some lexemes can be replaced. -/
theorem Lexed.graft {A R R' : List Piece} {tail tail' g y : Str} (h : Lexed (A ++ R) tail)
    (hm : ∀ q ∈ A, q.Movable) (hg : Apart A g)
    (hc : ∀ q s, A.getLast? = some q → q.type = .commentSingleLine s → ∃ r, g = '\n' :: r)
    (h' : Lexed R' tail') (hy : layout R' tail' = g ++ y) : Lexed (A ++ R') tail' := by
  induction A with
  | nil => exact h'
  | cons p A ih =>
    have hlast : ∀ q, A.getLast? = some q → (p :: A).getLast? = some q := by
      intro q hq
      cases A with
      | nil => cases hq
      | cons a A => rw [List.getLast?_cons_cons]; exact hq
    have hw := Lexed.wider h hg y
    obtain ⟨h1, h2, h3⟩ := h
    refine ⟨h1, ?_, ih h3 (fun q hq => hm q (by simp [hq])) (fun q hq => hg q (hlast q hq))
      fun q s hq => hc q s (hlast q hq)⟩
    rw [List.append_eq, layout_put, hy]
    refine Lexeme.widened (gap := p.gap) h2 (hm _ (by simp)) hw fun s hs => .inr ?_
    cases A with
    | nil =>
      obtain ⟨r, rfl⟩ := hc p s rfl hs
      exact ⟨r ++ y, rfl⟩
    | cons q A =>
      obtain ⟨g', hg'⟩ := Lexeme.comment_gap (g := q.gap) (l := q.lex) (hs ▸ h2) h3.2.1.head_not_ws
      exact ⟨_, by rw [layout, hg']; rfl⟩

/-- A comma or an exclamation mark can follow at once. -/
theorem Lexed.graft_mark {A R R' : List Piece} {tail tail' y : Str} {c : Char} (h : Lexed (A ++ R) tail)
    (hm : ∀ q ∈ A, q.Movable) (hn : ∀ q ∈ A, ∀ s, q.type ≠ .commentSingleLine s) (hc : IsMark c)
    (h' : Lexed R' tail') (hy : layout R' tail' = c :: y) : Lexed (A ++ R') tail' := by
  induction A with
  | nil => exact h'
  | cons p A ih =>
    have hw := Lexed.wider (g := ['\n']) h (fun q _ => .inl ⟨by simp [WsOnly, IsWs], by simp, by simp⟩) y
    obtain ⟨h1, h2, h3⟩ := h
    refine ⟨h1, ?_, ih h3 (fun q hq => hm q (by simp [hq])) fun q hq => hn q (by simp [hq])⟩
    have h4 := Lexeme.widened (gap := p.gap) h2 (hm _ (by simp)) hw fun s hs => absurd hs (hn p (by simp) s)
    rw [layout_end] at h4
    rw [List.append_eq, layout_put, hy, layout_end]
    exact Lexeme.sep (.inr (.inl rfl)) hc h4 (.inr (.inr (hn p (by simp))))

/-! ## Lines -/

/-- Types and lines of tokens. -/
def Token.key (t : Token) : TokenType × Int := (t.tokenType, t.range.start.line)

/-- Types and lines of the tokens at pieces. -/
def keysAt : (l : Int) → List Piece → List (TokenType × Int)
  | _, [] => []
  | l, p :: ps => (p.type, l + (p.gap.count '\n' : Nat)) :: keysAt (l + (p.gap.count '\n' : Nat)) ps

/-- The line after the pieces. -/
def lineAfter : (l : Int) → List Piece → Int
  | l, [] => l
  | l, p :: ps => lineAfter (l + (p.gap.count '\n' : Nat)) ps

theorem TokensAt.keys {o l : Int} {ps : List Piece} {ts : List Token} (h : TokensAt o l ps ts) :
    ts.map Token.key = keysAt l ps := by
  induction ps generalizing o l ts with
  | nil => cases ts <;> simp_all [TokensAt, keysAt]
  | cons p ps ih =>
    cases ts with
    | nil => simp [TokensAt] at h
    | cons t ts =>
      obtain ⟨h1, -, -, h4, h5⟩ := h
      rw [List.map_cons, ih h5, Token.key, h1, h4, keysAt]

theorem keysAt_append (l : Int) (A B : List Piece) :
    keysAt l (A ++ B) = keysAt l A ++ keysAt (lineAfter l A) B := by
  induction A generalizing l with
  | nil => rfl
  | cons p A ih => simp [keysAt, lineAfter, ih]

theorem keysAt_line {l : Int} {X : List Piece} (h : ∀ q ∈ X, '\n' ∉ q.gap) :
    keysAt l X = X.map (fun q => (q.type, l)) ∧ lineAfter l X = l := by
  induction X with
  | nil => exact ⟨rfl, rfl⟩
  | cons p X ih =>
    obtain ⟨h1, h2⟩ := ih fun q hq => h q (by simp [hq])
    have h0 : (p.gap.count '\n' : Nat) = 0 := List.count_eq_zero.2 (h p (by simp))
    simp [keysAt, lineAfter, h0, h1, h2]

theorem keysAt_length (l : Int) (A : List Piece) : (keysAt l A).length = A.length := by
  induction A generalizing l with
  | nil => rfl
  | cons p A ih => simp [keysAt, ih]

theorem lineAfter_concat (l : Int) (A : List Piece) (p : Piece) :
    lineAfter l (A ++ [p]) = lineAfter l A + (p.gap.count '\n' : Nat) := by
  induction A generalizing l with
  | nil => rfl
  | cons q A ih => exact ih _

/-- One line in place of a piece. -/
theorem keysAt_setGap {l : Int} {A X B : List Piece} {p : Piece} (hX : X ≠ []) (h : ∀ q ∈ X, '\n' ∉ q.gap) :
    keysAt l (A ++ (setGap p.gap X ++ B)) = keysAt l A ++
      (X.map (fun q => (q.type, lineAfter l (A ++ [p]))) ++ keysAt (lineAfter l (A ++ [p])) B) := by
  rw [keysAt_append, keysAt_append, lineAfter_concat]
  cases X with
  | nil => exact absurd rfl hX
  | cons q X =>
    obtain ⟨h1, h2⟩ := keysAt_line (l := lineAfter l A + (p.gap.count '\n' : Nat)) (X := X)
      fun q hq => h q (by simp [hq])
    simp only [setGap, keysAt, lineAfter, h1, h2, List.map_cons]

end Lol
