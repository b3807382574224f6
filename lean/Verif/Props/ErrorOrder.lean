import Verif.Props.ParserErrors
import Verif.Props.ParserProgram
import Verif.Props.ParserTree
import Verif.Props.Crlf
import Verif.Parser.ErrorList

/-! # The list of the errors in a tree -/

namespace Lol

/-! ## C93: the errors of a tree, listed -/

/-- **C93** The list of the errors (those of the inner blocks included, at their place) has the error nodes of the
program and of all its blocks, and nothing else. -/
theorem C93_listed (e : ASTError) (root : Block) :
    e ∈ errorsBlock root ↔ ∃ b, BlockIn b root ∧ .astError e ∈ b :=
  ⟨errorsBlock_in e root, fun ⟨_, hb, he⟩ => mem_errorsBlock hb he⟩

-- An error in a loop in a conditional.
set_option maxRecDepth 8000 in
example : ∃ nodes e, tokenizeAndParse chars!"O RLY?\nYA RLY\nIM IN YR l\nGIMMEH\nIM OUTTA YR l\nOIC" = .ok (.ok nodes) ∧
    errorsBlock nodes = [e] := ⟨_, _, rfl, rfl⟩

/-- **C93** When there is no ellipsis, all the tokens of an error start on the same line. -/
theorem C93_one_line {tokens : List Token} {nodes : Block} (h : parse tokens = .ok nodes)
    (hn : ∀ t ∈ tokens, t.tokenType ≠ .ellipsis) {e : ASTError} (he : e ∈ errorsBlock nodes) :
    e.toks ≠ [] ∧ ∃ line, ∀ t ∈ e.toks, t.range.start.line = line := by
  obtain ⟨b, hb, he⟩ := errorsBlock_in e nodes he
  obtain ⟨st, h1, h2, h3⟩ := (C69_says h hb he).toks
  refine ⟨h2, ?_⟩
  have key : ∃ l, ∀ t ∈ st, t.range.start.line = l := by
    rcases List.mem_cons.1 h1 with rfl | h1
    · exact ⟨_, ((split_line_aux tokens hn).1 _).1⟩
    · exact ((split_line_aux tokens hn).1 _).2 st h1
  obtain ⟨l, hl⟩ := key
  exact ⟨l, fun t ht => hl t (h3 t ht)⟩

-- The three tokens left over are on line 2, and so is `GTFO`.
example : ∃ tokens nodes e, tokenize chars!"GTFO\nGTFO 1 x 2 \nGTFO" = .ok (.ok tokens) ∧
    (∀ t ∈ tokens, t.tokenType ≠ .ellipsis) ∧ parse tokens = .ok nodes ∧ errorsBlock nodes = [e] ∧
    e.toks.map (fun t => t.range.start.line) = [2, 2, 2] := by
  refine ⟨_, _, _, rfl, ?_, rfl, rfl, ?_⟩ <;> decide +kernel

-- With an ellipsis they can be on two lines.
example : ∃ nodes e, tokenizeAndParse chars!"GTFO 1 ...\nx" = .ok (.ok nodes) ∧ errorsBlock nodes = [e] ∧
    e.toks.map (fun t => t.range.start.line) = [1, 2] :=
  ⟨_, _, rfl, rfl, by decide +kernel⟩

/-- **C93** The errors are listed in the order of the source and do not overlap: every token of an error is behind all
tokens of the errors before it. -/
theorem C93_in_order {code : Str} {nodes : Block} (h : tokenizeAndParse code = .ok (.ok nodes)) :
    (errorsBlock nodes).Pairwise fun e f =>
      ∀ t ∈ e.toks, ∀ u ∈ f.toks, t.range.stop.bytes ≤ u.range.start.bytes ∧
        t.range.start.line ≤ u.range.start.line := by
  obtain ⟨tokens, h1, h2⟩ := (C46_ok_iff code nodes).1 h
  have h3 := ((C04_ranges_ordered h1).2.and (scan_lines_sorted (tokenize_scan h1).choose_spec)).sublist
    ((errorsBlock_sublist nodes).trans (C22_tokens_sublist _ _ h2))
  exact (List.pairwise_flatMap.1 h3).2

-- Four errors, two of them in a loop.
set_option maxRecDepth 8000 in
example : ∃ nodes, tokenizeAndParse chars!"I HAS A\nIM IN YR l\nx R\nGTFO 1 \nIM OUTTA YR l 2 \nHUGZ" = .ok (.ok nodes) ∧
    (errorsBlock nodes).map (fun e => e.toks.map fun t => t.range.start.line) = [[1], [3], [4], [5]] :=
  ⟨_, rfl, by decide +kernel⟩

end Lol

