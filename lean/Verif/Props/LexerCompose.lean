import Verif.Props.LexerPositions
import Verif.Props.LexerTokens

/-! # Properties of the tokenizer: sources put together line by line (C54) -/

namespace Lol

/-! ## C54: lines are tokenized one after the other -/

/-- The tokens of the source `a ++ "\n" ++ b`, given the tokens `ts` of the lines `a` and the outcome for `b`: the
positions of `b` are shifted by the length of `a` and by its newlines outside tokens. -/
def joinLines (a : Str) (ts : List Token) :
    Out (Except TokenError (List Token)) → Out (Except TokenError (List Token)) :=
  let dl := (lineColumn ts (a ++ ['\n']) 0 1 1).1 - 1
  fun
  | .ok (.ok us) => .ok (.ok (ts ++ us.map (Token.shift 1 dl 0 (utf8Len a + 1) (a.length + 1))))
  | .ok (.error e) => .ok (.error (e.shift 1 dl 0 (utf8Len a + 1) (a.length + 1)))
  | .panic s => .panic s
  | .outOfFuel => .outOfFuel

/-- **C54** When `a` is tokenized as lines of their own, and no token takes the newline at their end, then `a` followed
by any lines `b` is tokenized to the tokens of `a` followed by those of `b`; an error or a panic in `b` is that of `b`. -/
theorem C54_lines {a b : Str} {ts : List Token} (h : tokenize (a ++ ['\n']) = .ok (.ok ts))
    (hend : ∀ t ∈ ts, t.range.stop.bytes ≤ utf8Len a) :
    tokenize (a ++ '\n' :: b) = joinLines a ts (tokenize b) := by
  obtain ⟨q, hq⟩ := tokenize_scan h
  have hn := hq.next_line a b rfl (fun t ht => by
    have := hend t ht
    show _ ≤ (0 : Int) + _
    omega)
  obtain ⟨mid, h1, h2, h3⟩ := scan_lineColumn hq ts (fun t ht => ht) (fun t ht hn => absurd ht hn)
  simp at h1
  subst h1
  obtain ⟨pre, g1, g2, g3⟩ := scan_prefix hq
  simp at g1
  subst g1
  have hout : Outside ts (utf8Len a) := by
    intro t ht hin
    have := hend t ht
    omega
  have hcol : q.column = 1 := by
    have h0 : Position.first.bytes = 0 := rfl
    rw [h0, lineColumn_append] at h2
    simp only [Int.zero_add] at h2
    rw [lineColumn, if_pos ⟨rfl, hout⟩] at h2
    exact (Prod.mk.inj h2).2.symm
  have hline : q.line - 1 = (lineColumn ts (a ++ ['\n']) 0 1 1).1 - 1 := by
    have : lineColumn ts (a ++ ['\n']) 0 1 1 = (q.line, q.column) := h2
    rw [this]
  have hb : q.bytes - 0 = utf8Len a + 1 := by
    rw [g2, utf8Len_append]
    simp [Position.first]
    rfl
  have hch : q.chars - 0 = a.length + 1 := by
    rw [g3]
    simp [Position.first]
  rw [tokenize_eq_run, run_scan hn]
  have hs := C18_position_independent b .first q (b.length + 1) (Nat.lt_succ_self _)
  rw [loop_eq_run (Nat.lt_succ_self _), loop_eq_run (Nat.lt_succ_self _)] at hs
  rw [hs, ← tokenize_eq_run]
  show prepend ts (shiftOutcome 1 (q.line - 1) (q.column - 1) (q.bytes - 0) (q.chars - 0) _) = _
  rw [hcol, hline, hb, hch]
  rcases tokenize b with (_ | us) | _ | _ <;> rfl

-- the second line is not affected by the first one, whose comment has a newline
example : ∃ ts us, tokenize (chars!"x R 1 OBTW a\n b TLDR" ++ ['\n']) = .ok (.ok ts) ∧
    (∀ t ∈ ts, t.range.stop.bytes ≤ utf8Len chars!"x R 1 OBTW a\n b TLDR") ∧
    tokenize chars!"y R 2 " = .ok (.ok us) ∧
    tokenize (chars!"x R 1 OBTW a\n b TLDR" ++ '\n' :: chars!"y R 2 ") =
      .ok (.ok (ts ++ us.map (Token.shift 1 1 0 21 21))) := by
  refine ⟨_, _, rfl, ?_, rfl, ?_⟩ <;> decide +kernel

private theorem Lexeme.newline_string {lex x : Str} {ty : TokenType} (h : Lexeme lex [] ty) (he : lex = x ++ ['\n']) :
    ∃ y, lex = '"' :: y := by
  have hm : '\n' ∈ lex := by simp [he]
  have hl : lex.getLast? = some '\n' := by simp [he]
  generalize hr : ([] : Str) = rest at h
  cases h with
  | comma | bang | slot | ellipsis | win | fail | noob => exact absurd hm (by decide)
  | btw body rest h1 h2 => simp [h1] at hm
  | obtw body rest h1 =>
    rw [List.getLast?_append] at hl
    simp at hl
  | keyword k => exact absurd hm k.spelling_line
  | number lex rest n h1 => exact absurd hm h1.no_newline
  | stringClosed body after pay c rest => exact ⟨_, rfl⟩
  | stringOpen body => exact ⟨_, rfl⟩
  | identifier name rest h1 h2 => exact absurd (h2 _ hm) (by decide)
  | symbol c rest h1 h2 =>
    simp at hm
    exact absurd (.inr (.inr hm.symm)) h2

/-- **C54** In particular when there is no quote in `a`. -/
theorem C54_unquoted {a b : Str} {ts : List Token} (ha : '"' ∉ a) (h : tokenize (a ++ ['\n']) = .ok (.ok ts)) :
    tokenize (a ++ '\n' :: b) = joinLines a ts (tokenize b) := by
  refine C54_lines h (fun t ht => ?_)
  obtain ⟨q, hq⟩ := tokenize_scan h
  obtain ⟨pre, lex, post, before, h1, h2, h3, h4, h5, h6, h7⟩ := scan_token hq ht
  rw [h5, Position.afterLexeme, h6]
  show (0 : Int) + utf8Len pre + utf8Len lex ≤ _
  rcases List.append_eq_append_iff.1 h1.symm with ⟨u, e1, e2⟩ | ⟨u, e1, e2⟩
  · rw [e1]; simp; omega
  · cases u with
    | nil =>
      simp at e1
      rw [← e1]; simp
    | cons c u =>
      exfalso
      simp at e2
      obtain ⟨rfl, rfl, rfl⟩ := e2
      rcases List.append_eq_append_iff.1 e1 with ⟨v, v1, v2⟩ | ⟨v, v1, v2⟩
      · obtain ⟨y, hy⟩ := Lexeme.newline_string h2 v2
        cases v with
        | nil =>
          rw [hy] at v2
          simp at v2
        | cons d v =>
          rw [hy] at v2
          simp at v2
          exact ha (by rw [v1, ← v2.1]; simp)
      · cases v with
        | nil =>
          simp at v2
          obtain ⟨y, hy⟩ := Lexeme.newline_string h2 (x := []) (by simp [← v2])
          rw [hy] at v2
          simp at v2
        | cons d v =>
          simp at v2
          exact h2.ne_nil v2.2.2

-- the error of the second line, at its place
example : ∃ ts, tokenize (chars!"VISIBLE x BTW OBTW" ++ ['\n']) = .ok (.ok ts) ∧
    '"' ∉ chars!"VISIBLE x BTW OBTW" ∧
    tokenize (chars!"VISIBLE x BTW OBTW" ++ '\n' :: chars!" OBTW") = .ok (.error (.unclosedMultilineComment
      { start := { line := 2, column := 2, bytes := 20, chars := 20 }
        stop := { line := 2, column := 6, bytes := 24, chars := 24 } })) := by
  refine ⟨_, rfl, ?_, ?_⟩ <;> decide +kernel

end Lol
