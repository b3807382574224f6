# Formal model of lolcode-ast (Lean 4)

`lean/` is a Lake project. Model, specifications, lemmas and property theorems are kept in separate files. Only core
Lean is used (no Mathlib module is imported).

## What is modelled

All non-test code of `/repo/src` and `/repo/lolcode-ast-derive` that computes something. Every definition of the model
has a comment with the file and the lines that it models.

| Rust | Lean |
|---|---|
| `str` slicing, `len`, `find`; panics | `Verif/Basic.lean` |
| `lexer/keywords.rs`, `lolcode-ast-derive/src/lib.rs` | `Verif/Lexer/Keywords.lean` |
| `lexer/position.rs`, `lexer/range.rs`, `lexer/token.rs` | `Verif/Lexer/Token.lean`, equality and display in `Verif/Lexer/Equality.lean` |
| `lexer/mod.rs` | `Verif/Lexer/Model.lean`, rounding and `==` of `f32` in `Verif/Lexer/Float.lean` |
| `parser/statement_iterator.rs` | `Verif/Parser/StatementIterator.lean`, derived methods in `Verif/Parser/Prog.lean` |
| data types of `parser/expression/*`, `parser/statements/*`, `parser/error.rs`, `parser/blocks.rs` | `Verif/Parser/Ast.lean` |
| parsers of `parser/expression/*` | `Verif/Parser/Expr.lean` |
| parsers of `parser/statements/*`, `parse_block` of `parser/blocks.rs`, `parser/mod.rs`, `lib.rs` | `Verif/Parser/Stmt.lean` |
| `tokens()` iterators and `range()` of `parser/expression/*`, `parser/statements/assignment.rs` | `Verif/Parser/Tokens.lean` |
| `get_inner_block`, `iter_errors` of `parser/blocks.rs` | `Verif/Parser/Blocks.lean` |
| the derived `PartialEq` of every type of the tree | `Verif/Parser/Equality.lean` |
| `ASTType::into_token`, `ASTExpressionValue::try_from`, `StatementIterator::from` | `Verif/Parser/Convert.lean` |
| the calls of `ASTExpression::parse`, `parse_block` and `StatementIterator::next` that are active at the same time | `Verif/Parser/Stack.lean` |
| the characters that the functions of `lexer/mod.rs` look at | `Verif/Lexer/Cost.lean` |
| `lexer/mod.rs` and `lexer/position.rs` with `i32` counters, with and without overflow checks | `Verif/Lexer/Fixed.lean` |

### Modelling decisions

* A `&str`/`String` is `List Char` (Lean `Char` = Unicode scalar value = Rust `char`). Rust slices by *byte* offset and
  panics off a character boundary; the model slices by byte offset too (`splitAtByte`) and a bad boundary is an explicit
  `panic` outcome. This matters: the lexer uses character indices as byte offsets in places.
* `i32` counters are unbounded `Int`; C08 proves that they stay in range for sources below 2^31-1 bytes. `Verif/Lexer/Fixed.lean`
  models the tokenizer again with the `i32` arithmetic, and C88 says exactly when the two agree.
* An `f32` is its sign bit and the other 31 bits as a number. `str::parse::<f32>` is modelled for the texts that reach
  it (`[+-]?d*.d*`): it fails iff there is no digit, otherwise it gives the nearest `f32`, ties to even, as the standard
  library documents (its algorithm is not modelled).
* Loops and recursion take a bound on the recursion (`fuel`); running out of it is a distinct outcome `outOfFuel`.
  C01 and C20 prove that the bound given by the entry points is never exhausted and that larger bounds change nothing.
* Panics (`unreachable!`, `todo!`, bad slices) are explicit outcomes that name the site.
* A parsing function is a `Prog`: the tree of its calls of `next`, `peek` and `next_statement` of the statement iterator
  (whose fields are private in Rust too), with the value, error or panic at the leaves. `Prog.run` executes it on any
  implementation of the three methods (`IterOps`). `parse` runs it on the model of `StatementIterator`
  (`StatementIterator.ops`). The proofs run it on lists of statements (`Stmts.ops`); `Verif/Parser/Simulation.lean` proves
  that the two agree.
* `Box<T>` is `T`; `Vec<T>` and `VecDeque<T>` are `List T`; `&T` is `T`; a `&mut` argument is returned.

### Not modelled

Memory, the size of stack frames and the stack that dropping or comparing a tree takes, derived `Debug` output (that of token types is a parameter of the model of `Token`'s), `VariableAssignment::similar` (the body
is `todo!()`, nothing calls it), `From` implementations that only wrap a value in a constructor, the derived `Clone`s,
`Default` and `IntoIterator` of `ASTBlock` (those of `VecDeque`).

### Checks of the model

The 47 test functions of the code (`#[test]` in `/repo/src`) are repeated on the model in
`Verif/Tests/UnitTests.lean`: each of their assertions is an `example` there, and all of them hold. They are tests of
the model, not proofs of any property, and no theorem depends on them.

## Specifications

Property theorems relate the model to these definitions, which do not use the functions of the model.

| File | Content |
|---|---|
| `Verif/Lexer/Spec.lean` | `Keyword.spelling`, lexemes (`Lexeme`), numbers, strings, positions, `Scan` (a tiling of the source by lexemes), `Spells`, `LexemeStart`, `TypeAt`, `lineColumn` (line and column after a text) |
| `Verif/Parser/Split.lean` | `split`: the division of a token list into statements; `stmt tokens k` |
| `Verif/Parser/IterSpec.lean` | states of the iterator that calls can lead to, `Joined` |
| `Verif/Parser/ExprSpec.lean` | tokens and well-formedness of expressions, what cannot follow an expression |
| `Verif/Parser/StmtSpec.lean` | the grammar of statements (`SimpleG`) and of error-free programs (`BlockG`), tokens and errors of a tree |
| `Verif/Parser/FailSpec.lean` | how a statement that opens no block fails |
| `Verif/Parser/ReadSpec.lean` | how any list of statements is read, errors included |
| `Verif/Parser/ConstructSpec.lean` | block constructs with possibly erroneous bodies |
| `Verif/Parser/TreeSpec.lean` | nodes, blocks and expressions inside a tree |
| `Verif/Lexer/FloatSpec.lean` | the numbers of type `f32`, and which of them is the nearest to a fraction |
| `Verif/Lexer/RenderSpec.lean` | how token types are written down as a text |
| `Verif/Lexer/LayoutSpec.lean` | a text as white space and lexemes, and changes of the white space |
| `Verif/Lexer/TidySpec.lean` | every stretch of white space as one character |
| `Verif/Lexer/ImageSpec.lean` | the lists of token types that come from source texts |
| `Verif/Lexer/RenameSpec.lean` | other names and strings in a source text |
| `Verif/Lexer/RunSpec.lean` | all outcomes of the tokenizer |
| `Verif/Lexer/CrlfSpec.lean` | Windows line ends; the token types of a line |
| `Verif/Parser/NoiseSpec.lean` | `AN`s and a last `MKAY` left out of a statement and of a tree |
| `Verif/Parser/SubstSpec.lean` | expressions put in place of literals, in a statement and in a tree |
| `Verif/Parser/SwapSpec.lean` | the part that a token plays, and a tree with words put for words |
| `Verif/Lexer/WordSpec.lean` | the keywords that can be written anywhere, and pieces with new keywords |
| `Verif/Lexer/BlankSpec.lean` | pieces of text closed up where a lexeme is left out |
| `Verif/Parser/GraftSpec.lean` | an expression in place of a literal in a source text |
| `Verif/Lexer/TrailSpec.lean` | how a source ends; the text held by tokens |
| `Verif/Parser/EditSpec.lean` | trees that differ only in the nodes of one statement |
| `Verif/Parser/CutSpec.lean` | the text of some tokens of a source; nodes that stand one after the other somewhere in a tree |
| `Verif/Parser/WordSpec.lean` | the tokens that statements without errors are made of |
| `Verif/Parser/AppendSpec.lean` | the errors of constructs that are not closed |
| `Verif/Parser/CloseSpec.lean` | the statements and lines that close constructs |
| `Verif/Parser/CoverSpec.lean` | the errors in a tree; constructs that fail after their heading |
| `Verif/Parser/CountSpec.lean` | kinds of nodes, statements that are not empty, statements a node is written with |
| `Verif/Parser/KeepSpec.lean` | the tokens that the tree leaves out |
| `Verif/Parser/ErrorSpec.lean` | for each kind of error, which statement it is about and what is missing or wrong there |
| `Verif/Parser/StackSpec.lean` | how deep a tree is nested; the tokens after which the parser calls itself |
| `Verif/Parser/MapSpec.lean` | the kind of a token, replacement of the tokens in a tree |
| `Verif/Parser/CostSpec.lean` | number of calls of the statement iterator, counting those inside `next_statement` |
| `Verif/Parser/ShapeSpec.lean` | the shape of a tree: the tree with all tokens replaced by the same one |
| `Verif/Parser/PrintSpec.lean` | `printBlock`: a tree written down as statements; `CompleteTree`: the shape of trees without errors |

The data types (tokens, keywords, syntax tree, errors) are shared by model and specifications: they are the interface
of the crate. The order of the keyword declarations (`Keyword.ctorIdx`) is part of the data type.

## Trusted base

* Lean's kernel (4.33.0). No axioms of our own, no `sorry`, no `native_decide`, no `bv_decide`.
* Axioms: at most `propext`, `Classical.choice`, `Quot.sound`. `AXIOMS.md` lists them for each property theorem.
* The reading of the Rust source recorded in the comments of the model.
* The semantics of Rust's standard library as described there: `str::find`, `starts_with`, slicing, `i32::from_str`,
  `f32::from_str`, `==` of `f32`, `Peekable`, `VecDeque`.

## Properties

`properties.jsonl` has the statements, `MANIFEST.json` the theorems. Theorems are named after the property
(`C17_error_iff` is about C17) and stand in `Verif/Props/`; the examples after a theorem are concrete cases that meet
its hypotheses.

| Property | Proof |
|---|---|
| C01 | every round of the loop consumes a character; bound sufficiency by induction on the source |
| C02, C03 | exact panic condition of one round, lifted along the run |
| C04, C05, C07-C09 | the run is a `Scan`; invariants of scans relate positions to the consumed prefix |
| C06, C10-C17, C19 | one round of the loop finds `ty` iff `Lexeme lex rest ty`, one lemma for each class of lexemes |
| C18 | the run at another position is the shifted run |
| C20 | bound sufficiency on lists of statements |
| C21 | every panic of the parser has one of two causes, found by induction over the parser |
| C22 | the tokens of the tree are a sublist of the tokens consumed |
| C23-C25 | abstraction from iterator states to lists of statements, every method refined |
| C26, C27, C30 | soundness by induction on the bound, completeness by induction on expressions |
| C28 | iterator states abstracted to the list of tokens that they still deliver |
| C29 | induction on expressions |
| C31-C33, C40, C41, C52 | statements that open no block: soundness and completeness against `SimpleG` and `SimpleFail` |
| C34-C37, C42-C44, C53 | soundness, completeness, totality and determinism of the reading relation of `ReadSpec` |
| C38 | soundness and completeness against `BlockG` |
| C39 | programs of statements that open no block read as the concatenation of their statements |
| C45, C49 | computation on the tree |
| C46 | composition of `tokenize` and `parse` |
| C47 | induction over `BlockG` and the reading relation; for a line with just a comment, C80 with the comment as the text put in |
| C48, C51 | the tokenizer never emits these keywords, and the tokens of the tree come from the input |
| C50 | invariant of the reading relation |
| C54 | a `Scan` stays one when its last newline is followed by more text; then C18 |
| C55 | every parser, seen as a program over iterator calls, is related to itself by replacement of tokens |
| C56 | a node read from the front of a list of statements leaves the rest; C54 and C55 for sources |
| C57 | the text is a `Scan`, line by line; then C55 |
| C58 | order of the ranges (C04, C09); decimal notation is injective and free of the separators |
| C59 | what is written down for a tree is derived by `BlockG` (induction on the tree); then C38 and C57 |
| C60 | amortised: every token that a parser takes pays for six calls, and so does every empty statement, which a comma or an ellipsis made; reaching the end pays for two calls more, once; one lemma for each parsing function. Sharp: lines `VISIBLE` and a last line `IM IN YR x` |
| C61 | every error leaf of every parsing function holds a token; then counting, and C22; the deep trees by C59; lines `WIN` reach both bounds |
| C62 | induction on both trees: equal trees have the same shape, and for trees of the same shape `==` compares tokens in order; nodes at different places hold different tokens, by the order of the ranges (C04) |
| C63 | number the tokens, so that both token lists are replacements (C55) in one list; then C62 |
| C64 | case distinction; the division into statements by C24 |
| C65 | the scan relation cut into pieces (unique); every lexeme is found again before wider white space; `splitFrom` compares only the lines of neighbouring tokens |
| C66 | bits as exponent and significand are strictly increasing numbers; a fraction lies between two neighbours and every other `f32` is further away; uniqueness gives the other claims |
| C67 | induction on the length of the text, with the uniqueness of lexemes; for the other direction a text is built from the end, with zeros put into large integers |
| C68 | mutual induction on the relation of C53 for the first program: the second is read the same up to the changed statement, and from there on; the statement is read alone, or its tokens are left over for an error |
| C69 | the failure relations of C53: each failure is about the tokens it has read; induction over the constructs that can lose their ending, and over blocks inside blocks |
| C70 | the parsers with the recursive calls as arguments; three relations between programs that are kept by sequencing (what is returned fits; same behaviour up to so many operators and blocks; what fits is returned too), each shown once for every parser, then induction on the depth |
| C71 | a copy of the lexer that counts, with the same outcome; each search costs a constant, or at most two looks for each byte of what it finds, or the length of two runs of digits; induction over the rounds of the loop |
| C72 | the lexemes of the part are found again before a newline (as in C65); the tokens of a statement are a part of the token list, by induction on the division into statements; C39 and C68 for the trees |
| C73 | induction on the grammar of C38; a program for each keyword that has a use |
| C74 | the step of the string literal (C03, C15); the byte count of the part and of the whole decide where it is cut |
| C75 | what `parse` reads, statement by statement (C52), keeps the tokens of an expression together; the part of the token list under them is cut out as in C72 and parsed by C38 |
| C76 | induction over the grammar of programs without errors (C38); the statements are the tokens without commas and ellipses (C24) |
| C77 | C54 and C56 put the statements of the source together from those of the text before, the line and the text after; C68 up to a replacement of tokens (here: dropping positions) does the rest; the errors by `Edited.errors` |
| C78 | what a block reads before the statement that ends it does not depend on what comes after (prefix property of runs); the statements are a segment of the token list (`stmts_segment`), cut out as in C72; the converse from the grammar (C38) and C54/C77 for the lines |
| C79 | induction on the reading relations (`NodeR.ext` … `BlockR.ext`): a part is read in the same way when more statements follow, or it was read up to the end, and then the construct around it reports that it is not closed; the text by C54 |
| C80 | the induction of C68 (`BlockR.edit`) for a statement in place of which several stand (`Runs`: what plain statements give one after the other); inserted lines are the case where the first new statement is the old one, the text by C54 and `LinesOf.around`; the errors by induction on `Edited` (`Edited.errors`) |
| C81 | induction over the reading relations (`BlockR.located`): the statements up to the one that panics are enough for the panic; the first such statement by induction on the number of statements; a prefix of the tokens with the statements before it (`split_take`); the text by C72 and `part_segment` |
| C82 | pieces of C65 with new lexemes; keywords and numbers contain no lower case letter and no quote, so a lexeme before the first difference does not reach it (`Altered`); then `C65_parse` and `C55_map` |
| C83 | induction over the grammar of error-free programs (`BlockG.close` and its mutual companions): a derivation cut after a number of statements is completed by closers; a body that is cut off is completed first, then the construct around it. The text by C54; the tree by C79 |
| C84 | a lexeme depends on at most 9 characters after it (`Lexeme.ahead`: a keyword is at most 9 characters longer than its first word, checked for all keywords); induction over the scan (`Scan.ahead`, `Scan.reach`); after the change by C18 |
| C85 | induction over the reading relations (`NodeR.counts` … `BlockR.counts`): what is read from a list of statements has at most one node and one leftover error per statement that is not empty, and first tokens in the order of the statements; statements are at most 1 + line changes + commas (`split_count`); the equation for error-free programs by induction over the grammar (`NodeG.own`) |
| C86 | which lexemes can start a space inside a keyword is computed from the keywords (`joins_iff`); then C65 with single spaces |
| C87 | the lemmas of C79 for all following statements at once (`JoinLemmas`): how the last statement ends does not depend on what follows; then induction on the root block gives four kinds, and one test with `GTFO` tells the first from the next two |
| C88 | each round of the loop with `i32` counters is the round with unbounded ones, with the additions done again (`replay`); then induction on the source, one white space character or lexeme at a time; `C88_blanks`, `C88_long_comment` and `C88_index` show that the bounds are needed |
| C89 | the cases of one round of the loop (`step_cases`) are exclusive because each determines the round's result; then induction on the source (`run_cases`, `run_ok_iff`, `run_error_iff`, `run_panic_iff`); with C53 for the whole crate |
| C41 (all programs) | induction over the derivation of the reading: every statement read is shown by a token, closes a block, or lies in a construct whose error is in the tree (`BlockR.covered`); what is not read does not matter: a parsing function run on two statement lists that agree on what it reads (`exec_reads`) |
| C90 | a lexeme other than a `BTW` comment stays one when carriage returns are put in (`Lexeme.crlf`); then strong induction on the source, one white space character or lexeme at a time; for the errors: the lines are the statements (`split_lines`), C39 gives their trees one by one, and C73 an error for each |
| C91 | the text of a token is a subsequence of its lexeme; induction over the scan; C22 for the tree |
| C92 | every lexeme but an open string, and every symbol that is not the start of a number, is one also when a newline follows (`Lexeme.trail`); induction over the scan; `C92_exceptions` shows that both conditions are needed |
| C93 | the list of the errors by mutual recursion over the tree (`errorsBlock_in`, `mem_errorsBlock`); its tokens are a subsequence of the tree's tokens (`errorsBlock_sublist`), those of the tokens (C22), and these are ordered (C04); one line by `split_line_aux` and C69 |
| C94 | a lexeme stays one when a comma after it becomes a newline and the other way round (`Lexeme.sep`), lifted to the scan (`Scan.sep`); what follows is the same tokens shifted by C18; the statements by induction on the tokens before the comma (`split_after`), then C55 |
| C95 | the statements by induction on the tokens before the ellipsis (`split_before`) and `split_steps` for those behind it; a lexeme stays one when dots come behind the white space after it, as no keyword has a dot (`Lexeme.dots`, `Scan.dots`); the rest is shifted by C18; taking an ellipsis out is `Lexed.graft` for the lexemes and the claim for token lists read backwards (`C95_undo`) |
| C96 | by induction on the derivation of C38: leaving out the words of every statement gives a derivation of the retouched tree (`BlockG.retouch`, `fits_an`, `fits_mkay`); an expression without `AN`s prints to the tokens without them (`Expr.dropAn_toks`), as nothing in an expression is a `YR`; positions by C55. For raw token lists the claim is false: an `AN` alone on a line behind an ellipsis makes the next line a new statement, so it is about statements |
| C97 | as C96, with `putIn` for `dropAn`: an expression stays well formed and open or closed when closed expressions are put in place of its literals (`Expr.putIn_spec`, `Expr.putIn_open`), and what follows an expression in a statement never is `'Z`; back (`C97_iff`): a token that is neither a value nor an operator cannot begin an expression put in, so every derivation of the new statements is read back token by token (`Expr.back`, by C27 where an expression was put in, `SimpleG.back`, `BlockG.back`) |
| C98 | the proof of C55 again (`Swap.block_maps`) with `role` for `kind` and `swap` for `map`: a word that can be exchanged is never tested for on its own except by the functions that make an operator, a type or a loop operation of it |
| C99 | `Reworded` follows the change through the lexemes (as `Altered` in C82): a keyword that reaches from before a placeable keyword into it is excluded by a table fact over all keywords and all places where a lexeme can start in them (`Keyword.placeable_apart`); then C65 and C98. The converse has a text for every other keyword |
| C100 | `Lexed.blanked`: a lexeme before the gap stays one, for a keyword does not reach over two characters of white space (`keyword_before_gap`) and a number stops at white space; then the statements are the same without the token (`split_without`, by induction over the tokens before it), and C96 |
| C101 | `Lexed.graft`: what follows some lexemes can be replaced by anything behind a gap that keeps apart, used for the lexemes before the literal and for those of the expression (`Lexed.graft_mark` where `,` or `!` follows); types and lines of the new tokens are those of the old ones with the expression's on the line of the literal (`keysAt_setGap`), so the statements are the old ones with the expression put in (`split_putAt`, by induction over the tokens); C38 gives that the line is the tokens of the expression; then C97 |
| C102 | the proof of C80 asks of the inserted statements only that the rest of a block is read after them as before (`ReadBefore`); a sequence of nodes of the grammar has this property, since each of them is read in one step whatever follows (`NodeG.step_map`, by C38), also with the tokens replaced |
| C103 | on derivations (C38): where a construct ends is known from the statements (`NodeG.unique`), so a sequence of nodes that starts where a block expects a node is a beginning of its nodes (`NodesG.start`); it cannot start at a word that ends a block or a part (`StopsAt.not`); then by induction over the derivation (`BlockG.exchange` and the others) |
| C104 | a panic while reading stays a panic when statements are inserted after a plain one (`BlockR.panics` and the others, by induction over the reading of C80); so with determinism a tree with the lines excludes a panic without them; the relation between the trees is that of C80 and C102 |
| C105 | the constructs of C78 are themselves programs that can be bodies (`BodyText.wrap_lines`); then C103 and C104 with the construct in place of the lines |
| C106 | how a statement is read does not depend on what follows what it takes (`StepR.uext` of C87); by induction on the statements of the lines they are read in any block as at the top, as no statement of them begins with a keyword that ends the block (`BlockR.closedIn`); the test excludes that the next statement is taken or not read; then the arguments of C102 and C104 |
| C107 | the lines are read in any block as alone up to the keyword that ends it (`SelfContained.body`, from C106), which gives the node of the construct; the kinds of C87 show that what follows it is read on its own (`SelfContained.of_step`) |
| C108 | by induction over the branches (`mebbes_body`): each program is read in its branch as alone up to the next MEBBE or OIC (`SelfContained.body` of C107); the conditions are read by the grammar of expressions, which does not see positions (`Expr.WF.bare`); then as in C107 |

### Where the code does not do what was asked

Ten properties are false for the code. For each of them the manifest says `partial`, there is a theorem with a concrete
counterexample (or a universal negation), and a theorem with the suffix `_partial` for the part that holds.

| Property | Finding |
|---|---|
| C03 | `tokenize` panics on a non-ASCII character outside strings and comments (also `…`, which the code means to accept), and on some strings with non-ASCII characters (`src/lexer/mod.rs:86,127`) |
| C07 | newlines inside strings and comments are not counted; all later lines and columns are off (`src/lexer/position.rs:53-59`) |
| C11 | `BTW`, `OBTW`, `WIN`, `FAIL`, `NOOB`, `ANY OF` are never emitted as keywords; `ANY OF` is hidden by `AN` |
| C14 | a number at the very end of the source is not a number (`position(..)?` in `src/lexer/mod.rs:17-29`) |
| C21 | `parse` panics on `MAEK` and on a statement such as `x y` (`src/parser/expression/mod.rs:354`, `src/parser/statements/mod.rs:220`) |
| C41 | an empty statement (`...` before a comma) ends the program silently; a construct that fails after its heading is dropped with all its statements, only its error is kept |
| C42 | the closing keyword of an empty block is parsed as an erroneous statement of the body |
| C43 | the statement after `HAI`, a function or a switch is always reported as superfluous |
| C45 | `iter_errors()` always panics |
| C47 | comment tokens reach the parser, which reports them as errors |

Also found: `QuestionMark` is never produced, a second test for `,` stands where `?` was meant (C19); `ANY OF` and the
type `NOOB` cannot come from source text (C48, C51); a string with non-ASCII characters that does not panic can have a
payload and a range that end at the wrong place (C06); `MissingR`, `InvalidOperation` and `InvalidConditional` are never
reported, and the comments in the code give sources for them, for `MissingName` and for `MissingArgument` that panic or
give other errors (C69); `parse` overflows the stack on deeply nested programs, and `next` on many ellipses in a row:
nothing limits the nesting (C70); digits that are no number (at the end of the source, or too large) are scanned again for
each single digit, so that `tokenize` takes quadratic time on them (C71); a carriage return is no white space but a symbol, so that programs
with Windows line ends have errors or make `parse` panic (C73); `MAEK` and `IS NOW` are keywords, but no statement with
them is accepted (C73); a string literal with a letter that is not ASCII is cut short, and the tokenizer goes on inside it
(C74).

## Tests against wrong programs

`seeded/LOG.jsonl` has one line for each edit of the model that was tried in a scratch copy: the definition, the edit,
the claim that it breaks, the theorems that failed and the theorems that were tightened. A theorem counts as failed when
its proof, or the proof of a lemma that it needs, does not go through any more.
