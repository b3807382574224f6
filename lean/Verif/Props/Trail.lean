import Verif.Lexer.TrailLemmas
import Verif.Props.ParserProgram
import Verif.Props.EditLine
import Verif.Parser.CoverSpec

/-! # Properties of `tokenize` and `tokenize_and_parse`: the text held (C91), the end of the source (C92) -/

namespace Lol

/-! ## C91: the text held -/

/-- **C91** The text in the tokens, one after the other, is a subsequence of the source. -/
theorem C91_tokens {code : Str} {ts : List Token} (h : tokenize code = .ok (.ok ts)) : (textOf ts).Sublist code := by
  rw [tokenize_eq_run] at h
  obtain ⟨q, hs⟩ := run_ok_iff.1 h
  obtain ⟨pre, h1, h2⟩ := scan_text hs
  rw [List.append_nil] at h1
  exact h1 ▸ h2

example : ∃ ts, tokenize chars!"VISIBLE \"a b\" xY BTW c" = .ok (.ok ts) ∧ textOf ts = chars!"a bxY c" :=
  ⟨_, rfl, by decide +kernel⟩

/-- **C91** Also the text in the tree, errors included, is a subsequence of the source; so the tree holds no more
text than the source has, in characters and in bytes. -/
theorem C91_tree {code : Str} {nodes : Block} (h : tokenizeAndParse code = .ok (.ok nodes)) :
    (textOf (toksBlock nodes)).Sublist code ∧ (textOf (toksBlock nodes)).length ≤ code.length ∧
      utf8Len (textOf (toksBlock nodes)) ≤ utf8Len code := by
  obtain ⟨ts, h1, h2⟩ : ∃ ts, tokenize code = .ok (.ok ts) ∧ parse ts = .ok nodes := by
    have h' := h
    unfold tokenizeAndParse at h'
    cases ht : tokenize code with
    | ok r =>
      cases r with
      | ok ts => exact ⟨ts, rfl, parse_of_tokenizeAndParse ht h⟩
      | error e => rw [ht] at h'; cases h'
    | panic p => rw [ht] at h'; cases h'
    | outOfFuel => rw [ht] at h'; cases h'
  have h3 : (textOf (toksBlock nodes)).Sublist code := by
    refine List.Sublist.trans ?_ (C91_tokens h1)
    have h4 := C22_tokens_sublist ts nodes h2
    unfold textOf
    clear h1 h2
    generalize toksBlock nodes = us at h4
    induction h4 with
    | slnil => exact .refl _
    | cons t _ ih => exact ih.trans (List.sublist_append_right _ _)
    | cons_cons t _ ih => exact (List.Sublist.refl _).append ih
  refine ⟨h3, h3.length_le, ?_⟩
  generalize textOf (toksBlock nodes) = s at h3
  clear h h1
  induction h3 with
  | slnil => exact Nat.le_refl _
  | cons c _ ih => rw [utf8Len_cons]; omega
  | cons_cons c _ ih => rw [utf8Len_cons, utf8Len_cons]; omega

-- the text after the error is in no node
example : ∃ nodes, tokenizeAndParse chars!"VISIBLE \"a b\" xY\nGTFO p q" = .ok (.ok nodes) ∧
    textOf (toksBlock nodes) = chars!"a bxYpq" := ⟨_, rfl, by decide +kernel⟩

/-! ## C92: the end of the source -/

/-- **C92** White space from a newline on, after the end of a source that does not end in a digit or a dot or in an
open string, changes no token and no position. -/
theorem C92_tokens {code w : Str} {ts : List Token} (h : tokenize code = .ok (.ok ts)) (hn : EndsNoNumber code)
    (hs : StringsClosed ts) (hw : WsOnly w) : tokenize (code ++ '\n' :: w) = .ok (.ok ts) := by
  rw [tokenize_eq_run] at h ⊢
  obtain ⟨q, h1⟩ := run_ok_iff.1 h
  have h2 := h1.trail hn (.inl hs) w
  obtain ⟨q', h3⟩ := scan_ws_end (w := '\n' :: w) (by
    intro c hc
    rcases List.mem_cons.1 hc with rfl | hc
    · exact .inr (.inr rfl)
    · exact hw c hc) q
  refine run_ok_iff.2 ⟨q', ?_⟩
  have := h2.trans h3
  simpa using this

-- with a comment at the end
example : ∃ ts, tokenize chars!"VISIBLE \"a\" 5 x BTW c" = .ok (.ok ts) ∧ EndsNoNumber chars!"VISIBLE \"a\" 5 x BTW c" ∧
    StringsClosed ts ∧ WsOnly chars!" \n\t" := by
  refine ⟨_, rfl, ?_, ?_, by unfold WsOnly; decide⟩
  · intro u c h
    have h := congrArg List.getLast? h
    simp at h
    rw [← h]
    decide
  · intro t ht s hs
    simp only [List.mem_cons, List.not_mem_nil, or_false] at ht
    rcases ht with rfl | rfl | rfl | rfl | rfl <;> first | (cases hs; decide) | cases hs

/-- **C92** So the tree is the same. -/
theorem C92_tree {code w : Str} {ts : List Token} (h : tokenize code = .ok (.ok ts)) (hn : EndsNoNumber code)
    (hs : StringsClosed ts) (hw : WsOnly w) : tokenizeAndParse (code ++ '\n' :: w) = tokenizeAndParse code := by
  unfold tokenizeAndParse
  rw [C92_tokens h hn hs hw, h]

example : ∃ ts nodes, tokenize chars!"5\nx" = .ok (.ok ts) ∧ StringsClosed ts ∧
    tokenizeAndParse chars!"5\nx" = .ok (.ok nodes) ∧
    tokenizeAndParse chars!"5\nx\n\n" = .ok (.ok nodes) := by
  refine ⟨_, _, rfl, ?_, rfl, rfl⟩
  intro t ht s hs
  simp only [List.mem_cons, List.not_mem_nil, or_false] at ht
  rcases ht with rfl | rfl <;> cases hs

/-- **C92** An error stays one (only the end of its range moves). -/
theorem C92_error {code w : Str} {s e : Position}
    (h : tokenize code = .ok (.error (.unclosedMultilineComment ⟨s, e⟩))) (hn : EndsNoNumber code) (hw : WsOnly w) :
    tokenize (code ++ '\n' :: w) = .ok (.error (.unclosedMultilineComment ⟨s, e.afterLexeme ('\n' :: w)⟩)) := by
  rw [tokenize_eq_run] at h ⊢
  obtain ⟨ts, rest, q, h1, h2, h3⟩ := run_error_iff.1 h
  cases h3
  have hne : rest ≠ [] := by
    rintro rfl
    have := h2.1
    simp at this
  refine run_error_iff.2 ⟨ts, _, s, h1.trail hn (.inr hne) w, h2.trail _ ?_, ?_⟩
  · intro c hc
    have : IsWs c := by
      rcases List.mem_cons.1 hc with rfl | hc
      · exact .inr (.inr rfl)
      · exact hw c hc
    rcases this with rfl | rfl | rfl <;> decide
  · simp [Position.afterLexeme, utf8Len_append]
    omega

example : ∃ s e, tokenize chars!"x OBTW y" = .ok (.error (.unclosedMultilineComment ⟨s, e⟩)) ∧ s.bytes = 2 ∧
    e.bytes = 8 ∧ (e.afterLexeme chars!"\n\n").bytes = 10 := ⟨_, _, rfl, by decide +kernel⟩

/-- **C92** So does a panic. -/
theorem C92_panic {code w : Str} {s : PanicSite} (h : tokenize code = .panic s) (hn : EndsNoNumber code) :
    tokenize (code ++ '\n' :: w) = .panic s := by
  rw [tokenize_eq_run] at h ⊢
  obtain ⟨h0, ts, rest, q, h1, h2⟩ := run_panic_iff.1 h
  have hne : rest ≠ [] := by
    rintro rfl
    obtain ⟨c, r, hc, -⟩ := h2.head_not_ws
    cases hc
  exact run_panic_iff.2 ⟨h0, ts, _, q, h1.trail hn (.inr hne) w, h2.trail _⟩

example : tokenize chars!"x \"a\" é" = .panic .strSlice := rfl

/-- **C92** The two exceptions: a number at the end of the source is not one, and an open string takes the newline. -/
theorem C92_exceptions :
    (∃ a b, tokenizeAndParse chars!"VISIBLE 5" = .ok (.ok a) ∧ errorsBlock a ≠ [] ∧
      tokenizeAndParse chars!"VISIBLE 5\n" = .ok (.ok b) ∧ errorsBlock b = []) ∧
    (∃ a b, tokenizeAndParse chars!"VISIBLE \"p" = .ok (.ok a) ∧ textOf (toksBlock a) = ['p'] ∧
      tokenizeAndParse chars!"VISIBLE \"p\n" = .ok (.ok b) ∧ textOf (toksBlock b) = ['p', '\n']) :=
  ⟨⟨_, _, rfl, by simp [errorsBlock, Node.errors], rfl, rfl⟩, _, _, rfl, rfl, rfl, rfl⟩

end Lol
