{"id": "C01", "title": "tokenize terminates", "statement": "For every input string, tokenize comes back after finitely many loop rounds: it returns Ok, returns Err or panics; it never spins without consuming input.", "quantifier": "every string, of any length", "why_tests_cant": "termination over an unbounded input space; a test only shows it for the strings it runs", "anchors": ["src/lexer/mod.rs:tokenize", "src/lexer/mod.rs:make_token"]}
{"id": "C02", "title": "tokenize never panics on ASCII", "statement": "For every string made only of ASCII characters tokenize returns Ok or Err and does not panic.", "quantifier": "every ASCII string", "why_tests_cant": "slice-boundary panics depend on every combination of lexemes; finitely many samples cannot exclude them", "anchors": ["src/lexer/mod.rs:tokenize", "src/lexer/mod.rs:parse_string", "src/lexer/mod.rs:parse_number", "src/lexer/mod.rs:parse_ellipsis"]}
{"id": "C03", "title": "tokenize never panics on any valid UTF-8", "statement": "tokenize returns Ok or Err for every Rust String, including non-ASCII text. (Expected by users; the code violates it: it panics exactly when, at a lexeme start, it meets a non-ASCII character or a string literal whose character index of the closing quote is not a byte boundary.)", "quantifier": "every string", "why_tests_cant": "the failing inputs are characterised by a property of all lexeme starts and all multi-byte contents", "anchors": ["src/lexer/mod.rs:parse_string", "src/lexer/mod.rs:parse_ellipsis", "src/lexer/mod.rs:tokenize"]}
{"id": "C04", "title": "Token ranges tile the source", "statement": "When tokenize returns Ok, the source is exactly: whitespace, lexeme, whitespace, lexeme, ..., whitespace, one non-empty lexeme per token in order; whitespace is only space, tab and newline. Nothing is lost, duplicated or reordered, ranges are non-empty, ordered and disjoint.", "quantifier": "every string on which tokenize returns Ok", "why_tests_cant": "must hold for every source text", "anchors": ["src/lexer/mod.rs:tokenize", "src/lexer/mod.rs:make_token", "src/lexer/mod.rs:parse_whitespace"]}
{"id": "C05", "title": "Byte and char offsets are exact", "statement": "For every returned token the bytes field of its start (end) is the UTF-8 length of the source before (up to and including) its lexeme, and chars is the number of Unicode characters there; both always fall on character boundaries, so slicing the source by the range yields the lexeme.", "quantifier": "every string, every returned token", "why_tests_cant": "multi-byte text at arbitrary places; offsets accumulate over the whole history of the loop", "anchors": ["src/lexer/mod.rs:make_token", "src/lexer/position.rs:Position"]}
{"id": "C06", "title": "A token's type is spelled by its lexeme", "statement": "The source text under a token's range spells the token's type: keyword text for keywords, the identifier itself, digits whose value is the Int payload, quote-delimited text whose content is the String payload, BTW/OBTW..TLDR around the comment payload, one character for symbols and so on.", "quantifier": "every string on which tokenize returns Ok (string literals: ASCII contents)", "why_tests_cant": "relation between payload and source for all inputs", "anchors": ["src/lexer/mod.rs:tokenize", "src/lexer/token.rs:TokenType"]}
{"id": "C07", "title": "Line and column are right", "statement": "A token's start line is 1 plus the number of newlines before it and its column is 1 plus the number of bytes since the last newline. (The code satisfies this when no string or comment contains a newline; in general only newlines outside tokens are counted.)", "quantifier": "every string, every returned token", "why_tests_cant": "positions accumulate over the entire prefix", "anchors": ["src/lexer/position.rs:AddAssign", "src/lexer/mod.rs:parse_whitespace"]}
{"id": "C08", "title": "Position counters do not overflow i32", "statement": "If the source is shorter than 2^31-1 bytes, every line, column, bytes and chars value in every token range (and in the error range) fits in an i32, so no counter overflows.", "quantifier": "every string below the size bound", "why_tests_cant": "overflow needs gigabyte inputs and a bound over all histories", "anchors": ["src/lexer/position.rs:Position", "src/lexer/mod.rs:tokenize"]}
{"id": "C09", "title": "Position equality and order agree within one source", "statement": "For any two positions occurring in the ranges returned by one tokenize call, == (which compares line and column) holds iff their byte offsets are equal, and byte order (<) coincides with lexicographic (line, column) order.", "quantifier": "every string, every pair of positions in the result", "why_tests_cant": "pairs of positions over arbitrary texts", "anchors": ["src/lexer/position.rs:PartialEq", "src/lexer/position.rs:PartialOrd"]}
{"id": "C10", "title": "Keyword choice is first match in declaration order", "statement": "A Keyword token is exactly the first keyword in declaration order whose text (variant name with underscores as spaces) is a prefix of the remaining source at a lexeme start; apart from ANY OF (shadowed by AN) this is the longest matching keyword.", "quantifier": "every lexeme start of every string", "why_tests_cant": "prefix conflicts between keywords and all possible continuations", "anchors": ["src/lexer/mod.rs:parse_keyword", "src/lexer/keywords.rs:Keywords", "lolcode-ast-derive/src/lib.rs:derive_to_string_slice"]}
{"id": "C11", "title": "Every keyword can be tokenized", "statement": "For each keyword there is a source on which tokenize emits it. (False: BTW, OBTW, NOOB, WIN, FAIL and ANY OF are never emitted as Keyword tokens by any input; every other keyword is.)", "quantifier": "every string and every keyword", "why_tests_cant": "non-emission is a claim about all inputs", "anchors": ["src/lexer/keywords.rs:Keywords", "src/lexer/mod.rs:tokenize"]}
{"id": "C12", "title": "Identifier tokens", "statement": "An Identifier token's text is a non-empty maximal run of ASCII letters and underscores that does not begin with any keyword text; conversely any such run at a lexeme start becomes one Identifier token.", "quantifier": "every string, every lexeme start", "why_tests_cant": "requires excluding every keyword prefix on every word", "anchors": ["src/lexer/mod.rs:parse_identifier", "src/lexer/mod.rs:parse_keyword"]}
{"id": "C13", "title": "Integer literals", "statement": "An Int token's lexeme is an optional sign followed by digits, its value is the decimal value of the lexeme and lies in the i32 range, and it is followed by a character that is neither a digit nor a dot; conversely every such in-range literal at a lexeme start followed by such a character becomes that Int token.", "quantifier": "every string, every integer literal", "why_tests_cant": "all values and boundaries of i32, all continuations", "anchors": ["src/lexer/mod.rs:parse_number"]}
{"id": "C14", "title": "Numbers are recognised wherever they stand", "statement": "A decimal literal is tokenized as a Number whatever follows it. (False: a literal that ends the input is never a Number; it is broken into one-character Symbols.)", "quantifier": "every digit string", "why_tests_cant": "quantifies over all literals and all continuations", "anchors": ["src/lexer/mod.rs:parse_number"]}
{"id": "C15", "title": "String literals (ASCII)", "statement": "At a lexeme start, a double quote begins a String token that ends at the first later quote not directly preceded by an unconsumed colon; its payload is the text between; if there is none the token takes all remaining text.", "quantifier": "every ASCII string", "why_tests_cant": "escape sequences of any length and number", "anchors": ["src/lexer/mod.rs:parse_string"]}
{"id": "C16", "title": "Single line comments", "statement": "A BTW lexeme extends exactly to (not including) the next newline or the end of the source, and its payload is the text after BTW.", "quantifier": "every string (any Unicode)", "why_tests_cant": "arbitrary comment contents", "anchors": ["src/lexer/mod.rs:parse_single_line_comment"]}
{"id": "C17", "title": "Multi line comments and the only error", "statement": "An OBTW lexeme extends to the end of the first TLDR after it, payload in between; tokenize returns Err iff some OBTW at a lexeme start has no TLDR after it, and the error range runs from that OBTW to the end of the source.", "quantifier": "every string", "why_tests_cant": "all contents and all error histories", "anchors": ["src/lexer/mod.rs:parse_multi_line_comment", "src/lexer/mod.rs:tokenize"]}
{"id": "C18", "title": "Tokenizing is independent of the start position", "statement": "The sequence of token types does not depend on the current position, and prepending spaces, tabs or newlines to a source only shifts positions.", "quantifier": "every string and every whitespace prefix", "why_tests_cant": "relational property over pairs of runs", "anchors": ["src/lexer/mod.rs:tokenize"]}
{"id": "C19", "title": "Punctuation and symbols", "statement": "A comma, exclamation mark, 'Z or ... at a lexeme start yields exactly Comma, ExclamationMark, BukkitSlotAccess or Ellipsis; QuestionMark is never produced and ? yields Symbol(\"?\"); a Symbol's payload is always exactly one ASCII character.", "quantifier": "every string", "why_tests_cant": "never-produced claims range over all inputs", "anchors": ["src/lexer/mod.rs:tokenize", "src/lexer/mod.rs:parse_bukkit_slot_access", "src/lexer/mod.rs:parse_ellipsis"]}
{"id": "C20", "title": "parse terminates", "statement": "parse comes back (returns or panics) on every token vector, whatever the types and positions.", "quantifier": "every token vector, including ones tokenize never produces", "why_tests_cant": "termination of mutually recursive loops over unbounded inputs", "anchors": ["src/parser/mod.rs:parse", "src/parser/blocks.rs:parse_block"]}
{"id": "C21", "title": "parse never panics", "statement": "parse returns an ASTBlock for every token vector. (False: it panics on MAEK in expression position and on a statement that starts with a variable access followed by anything but R or HAS A; those are the only two panics.)", "quantifier": "every token vector", "why_tests_cant": "requires excluding every other panic path", "anchors": ["src/parser/statements/mod.rs:parse_statement", "src/parser/expression/mod.rs:ASTExpression::parse"]}
{"id": "C22", "title": "The AST only contains input tokens, in order", "statement": "Reading all tokens stored in the AST returned by parse (error nodes included) from left to right gives a subsequence of the input token vector: no token is invented, duplicated or moved.", "quantifier": "every token vector on which parse returns", "why_tests_cant": "arbitrary nesting and error recovery", "anchors": ["src/parser/mod.rs:parse", "src/parser/blocks.rs:parse_block"]}
{"id": "C23", "title": "parse sees only the statement split", "statement": "The AST depends on the tokens only through their division into statements; physical lines, the number of commas and ... continuations are otherwise invisible.", "quantifier": "every pair of token vectors with the same split", "why_tests_cant": "relational property over all pairs of programs", "anchors": ["src/parser/statement_iterator.rs:StatementIterator", "src/parser/mod.rs:parse"]}
{"id": "C24", "title": "Statement split is lossless", "statement": "Splitting into statements at commas and line changes, with ... joining lines, keeps every token other than commas and ellipses exactly once and in order; no statement contains a comma or ellipsis; two adjacent tokens are in one statement iff they are on the same line or joined by an ellipsis.", "quantifier": "every token vector", "why_tests_cant": "all interleavings of commas, lines and ellipses", "anchors": ["src/parser/statement_iterator.rs:next", "src/parser/statement_iterator.rs:next_statement"]}
{"id": "C25", "title": "Peeking does not change what is read", "statement": "peek, next_if and the next_if_* helpers never change the sequence of tokens later read: peek returns what the following next returns, any number of times.", "quantifier": "every iterator state reachable by any sequence of calls", "why_tests_cant": "histories of calls of any length", "anchors": ["src/parser/statement_iterator.rs:peek", "src/parser/statement_iterator.rs:next_if", "src/parser/statement_iterator.rs:next_if_token_type_eq", "src/parser/statement_iterator.rs:next_if_token_type_ne"]}
{"id": "C26", "title": "Expression parsing is sound", "statement": "If an expression is parsed from a statement, its tokens() are exactly the tokens consumed (in order) and it is well formed per the expression grammar.", "quantifier": "every statement and every start", "why_tests_cant": "recursive grammar, unbounded depth", "anchors": ["src/parser/expression/mod.rs:ASTExpression::parse", "src/parser/expression/binary_operation.rs:BinaryOperation::parse", "src/parser/expression/nary_operations.rs:NaryOperation::parse"]}
{"id": "C27", "title": "Expression parsing is complete and unambiguous", "statement": "Every well formed expression is parsed back from its own tokens followed by any text that cannot extend it; two different well formed expressions never have the same tokens.", "quantifier": "every well formed expression, any nesting", "why_tests_cant": "unbounded tree depth and width", "anchors": ["src/parser/expression/mod.rs:ASTExpression::parse"]}
{"id": "C28", "title": "tokens() iterators are exact and fused", "statement": "Repeatedly calling next on expression.tokens() (and on the iterators of variable accesses and assignments) yields exactly the stored tokens in source order, then None for ever.", "quantifier": "every expression tree, every number of calls", "why_tests_cant": "nested iterator state machines over arbitrary trees", "anchors": ["src/parser/expression/mod.rs:ASTExpressionIterator", "src/parser/expression/nary_operations.rs:NaryOperationIterator", "src/parser/expression/variable_access_iterator.rs:VariableAccessIterator", "src/parser/statements/assignment.rs:VariableAssignmentIterator"]}
{"id": "C29", "title": "range() spans first to last token", "statement": "expression.range() is (start of first token, end of last token) of expression.tokens(); same for variable accesses and assignments.", "quantifier": "every expression tree", "why_tests_cant": "recursion over arbitrary trees", "anchors": ["src/parser/expression/mod.rs:ASTExpression::range", "src/parser/expression/variable_access.rs:VariableAccess::range"]}
{"id": "C30", "title": "Operators match keywords", "statement": "The operator variant of a parsed operation always carries the token whose keyword names that operator (SUM OF gives SumOf, ...), and every operator keyword other than MAEK is accepted.", "quantifier": "every parsed expression", "why_tests_cant": "all sub-expressions of arbitrary trees", "anchors": ["src/parser/expression/mod.rs:ASTExpression::parse", "src/parser/expression/binary_operation.rs:BinaryOpt"]}
{"id": "C31", "title": "I HAS A", "statement": "A statement parses to an IHasA node iff it is I HAS A, an identifier (optionally SRS), and optionally ITZ followed by a type keyword or a whole expression; error nodes name the missing or offending token.", "quantifier": "every statement starting with I HAS A", "why_tests_cant": "all expressions as initial values", "anchors": ["src/parser/statements/i_has_a.rs:IHasA::parse"]}
{"id": "C32", "title": "Assignment and slot setting", "statement": "A statement starting with a variable access parses to an assignment iff it is access R expression, to a slot setting iff it is access HAS A identifier ITZ expression, and to an expression statement iff nothing follows the access.", "quantifier": "every statement starting with an identifier or SRS", "why_tests_cant": "all accesses and expressions", "anchors": ["src/parser/statements/assignment.rs:VariableAssignment::parse", "src/parser/statements/bukkit_set_slot.rs:BukkitSetSlot::parse", "src/parser/statements/mod.rs:parse_statement"]}
{"id": "C33", "title": "VISIBLE, GIMMEH, FOUND YR, I IZ", "statement": "These statements parse without error iff the rest of the statement is, respectively: any number of expressions then an optional !; one variable access; one expression; a variable access, YR-separated argument expressions and a closing MKAY. The node holds exactly those parts.", "quantifier": "every statement starting with these keywords", "why_tests_cant": "any number and depth of expressions", "anchors": ["src/parser/statements/visible.rs:Visible::parse", "src/parser/statements/gimmeh.rs:Gimmeh::parse", "src/parser/statements/found_yr.rs:FoundYr::parse", "src/parser/statements/i_is.rs:IIz::parse"]}
{"id": "C34", "title": "Loops", "statement": "A loop node is produced iff the source is IM IN YR label, optional UPPIN/NERFIN YR access, optional TIL/WILE expression, a body block and a statement IM OUTTA YR label; the closing token is always IM OUTTA YR. (Labels are not required to match by the code.)", "quantifier": "every program, any body", "why_tests_cant": "unbounded bodies and nesting", "anchors": ["src/parser/statements/im_in_yr.rs:ImInYr::parse"]}
{"id": "C35", "title": "Functions", "statement": "A function node is produced iff the source is HOW IZ I name, AN-separated YR parameters, a body block and IF U SAY SO.", "quantifier": "every program, any body", "why_tests_cant": "unbounded bodies and nesting", "anchors": ["src/parser/statements/how_is_i.rs:HowIzI::parse"]}
{"id": "C36", "title": "Conditionals", "statement": "An ORly node is produced iff the source is O RLY ?, an optional YA RLY block, any number of MEBBE expression blocks, an optional NO WAI block and OIC, in this order.", "quantifier": "every program", "why_tests_cant": "any number of branches, nested bodies", "anchors": ["src/parser/statements/o_rly.rs:ORly::parse"]}
{"id": "C37", "title": "Switches", "statement": "A Wtf node is produced iff the source is WTF ?, any number of OMG expression blocks, an optional OMGWTF block and OIC.", "quantifier": "every program", "why_tests_cant": "any number of cases, nested bodies", "anchors": ["src/parser/statements/wtf.rs:Wtf::parse"]}
{"id": "C38", "title": "Error-free iff grammatical", "statement": "parse returns an AST without error nodes iff the statement split is derivable in the (declarative) program grammar, and then the AST is the derivation's.", "quantifier": "every token vector", "why_tests_cant": "whole-language equivalence", "anchors": ["src/parser/mod.rs:parse", "src/parser/blocks.rs:parse_block"]}
{"id": "C39", "title": "Errors stay local in flat programs", "statement": "In a program of simple statements (no block statement, no HAI), each statement contributes exactly the nodes it contributes when parsed alone; an error in one statement never changes the nodes of another.", "quantifier": "every list of simple statements", "why_tests_cant": "any number of statements and error combinations", "anchors": ["src/parser/blocks.rs:parse_block", "src/parser/statement_iterator.rs:next_statement"]}
{"id": "C40", "title": "Leftover tokens are reported", "statement": "When a simple statement has been parsed and tokens remain in that statement, the AST has an error node TooManyTokens holding exactly the remaining tokens, right after the statement's node.", "quantifier": "every simple statement", "why_tests_cant": "all leftovers", "anchors": ["src/parser/blocks.rs:parse_block", "src/parser/statement_iterator.rs:next_statement_should_be_empty"]}
{"id": "C41", "title": "No statement is silently dropped", "statement": "Every statement of the source contributes at least one node. (False: a statement consisting only of ... before a comma ends the block and everything after it is dropped without an error; in every other case it holds for flat programs. Every program is read up to an empty statement: what follows leaves no token and does not matter, and a statement before it leaves a token in the tree, or is OIC or IF U SAY SO, or belongs to a loop, function, switch or conditional that fails after its heading and whose error is in the tree.)", "quantifier": "every token vector", "why_tests_cant": "all positions of ellipses and commas", "anchors": ["src/parser/blocks.rs:parse_block", "src/parser/statement_iterator.rs:next"]}
{"id": "C42", "title": "Empty blocks parse as empty", "statement": "A block construct with an empty body yields an empty block. (False: parse_block never checks its stop token before the first statement, so the closing keyword is consumed as an erroneous body statement; a block in the tree can only be empty if the source has an empty statement, i.e. an ellipsis directly before a comma.)", "quantifier": "every block construct", "why_tests_cant": "claim about all programs", "anchors": ["src/parser/blocks.rs:parse_block"]}
{"id": "C43", "title": "Statements after HAI, functions and switches are parsed normally", "statement": "A statement that follows HAI, IF U SAY SO or a switch's OIC is parsed like any other statement. (False: it is always reported as TooManyTokens.)", "quantifier": "every program", "why_tests_cant": "claim about all following statements", "anchors": ["src/parser/statements/hai.rs:Hai::parse", "src/parser/statements/how_is_i.rs:HowIzI::parse", "src/parser/statements/wtf.rs:Wtf::parse"]}
{"id": "C44", "title": "Unclosed blocks are reported", "statement": "If the input ends (or an empty statement comes) inside the body of a function, conditional, switch or loop of the program, the AST has an error node at that place carrying the opening token (MissingBlockClosingToken, or MissingImOuttaYr for loops), and these errors are produced in no other way.", "quantifier": "every program prefix", "why_tests_cant": "all truncation points", "anchors": ["src/parser/statements/how_is_i.rs:HowIzI::parse", "src/parser/statements/o_rly.rs:ORly::parse", "src/parser/statements/wtf.rs:Wtf::parse", "src/parser/statements/im_in_yr.rs:ImInYr::parse"]}
{"id": "C45", "title": "iter_errors lists the errors", "statement": "iterating iter_errors() of any block yields every error in it. (False: the first call to next always panics, whatever the block.)", "quantifier": "every ASTBlock", "why_tests_cant": "all ASTs", "anchors": ["src/parser/blocks.rs:ASTBlockErrorIterator", "src/parser/blocks.rs:get_inner_block"]}
{"id": "C46", "title": "tokenize_and_parse is the composition", "statement": "tokenize_and_parse returns Err e iff tokenize returns Err e, and otherwise Ok of parse of the tokens.", "quantifier": "every string", "why_tests_cant": "composition over all inputs", "anchors": ["src/lib.rs:tokenize_and_parse"]}
{"id": "C47", "title": "Comments are ignored by the parser", "statement": "Removing comment tokens does not change the AST. (False: a comment token at any place where the parser reads a token produces an error node or a panic; a program containing a comment outside HAI is never parsed error-free.)", "quantifier": "every token vector containing a comment", "why_tests_cant": "all places a comment may stand", "anchors": ["src/parser/expression/mod.rs:ASTExpression::parse", "src/parser/blocks.rs:parse_block"]}
{"id": "C48", "title": "Literal NOOB versus type NOOB", "statement": "For ASTs produced from source text, I HAS A x ITZ NOOB is always an initial value, never the Noob type: no AST from tokenize_and_parse contains ASTType::Noob.", "quantifier": "every string", "why_tests_cant": "never-produced claim over all inputs", "anchors": ["src/parser/expression/identifier.rs:ASTType", "src/lexer/mod.rs:parse_noob"]}
{"id": "C49", "title": "Inner blocks are listed in source order", "statement": "For block statements the list of inner blocks is: switch cases then default; true branch, mebbes, false branch; loop body; function body; and nothing for other nodes.", "quantifier": "every AST node", "why_tests_cant": "all nodes", "anchors": ["src/parser/blocks.rs:get_inner_block"]}
{"id": "C50", "title": "Trees are well formed even when there are errors", "statement": "Every AST returned by parse, whether or not it contains error nodes, is well formed: every stored token has the type that its place asks for (operator tokens match the operator variant, identifiers are identifier tokens, arities are respected, labels are identifiers, the R of an assignment is R, ...).", "quantifier": "all token vectors, all nodes of the returned AST at any depth", "why_tests_cant": "The set of token vectors is infinite and error recovery can leave the parser in the middle of any construct; tests only visit some recovery paths.", "anchors": ["src/parser/mod.rs:parse", "src/parser/blocks.rs:parse_block", "src/parser/statements/mod.rs:parse_statement"]}
{"id": "C51", "title": "ANY OF is never parsed from source text", "statement": "No AST produced by tokenize_and_parse contains an ANY OF operation, at any depth: the tokenizer never emits the keyword (the prefix keyword AN wins), so NaryOperationOperator::AnyOf is unreachable from source text.", "quantifier": "every string", "why_tests_cant": "never-produced claim over all inputs", "anchors": ["src/parser/expression/nary_operations.rs:NaryOpt", "src/lexer/keywords.rs:Keywords", "src/lib.rs:tokenize_and_parse"]}
{"id": "C52", "title": "Statements that do not open a block: complete specification", "statement": "For every statement that does not start with HAI, IM IN YR, HOW IZ I, WTF or O RLY, the outcome of parse (which node, which error with which token, how many tokens are left over and reported, or which panic) is the one given by a declarative grammar of statements and of failures; every such statement is covered by exactly one case.", "quantifier": "every such statement", "why_tests_cant": "Unbounded nesting of expressions and all places where a statement can go wrong, with the exact error reported.", "anchors": ["src/parser/statements/mod.rs:parse_statement", "src/parser/expression/mod.rs:ASTExpression::parse", "src/parser/statement_iterator.rs:next_statement_should_be_empty"]}
{"id": "C53", "title": "Programs with errors: complete specification", "statement": "For every token vector the outcome of parse (the whole tree with every error node, or the panic) is the one given by a declarative reading relation on the list of statements; the relation relates every list of statements to exactly one outcome.", "quantifier": "every token vector", "why_tests_cant": "Unbounded nesting of blocks and expressions and every place where a program can go wrong.", "anchors": ["src/parser/mod.rs:parse", "src/parser/blocks.rs:parse_block", "src/parser/statements/mod.rs:parse_statement"]}
{"id": "C54", "title": "Lines are tokenized one after the other", "statement": "If the lines a (with the newline at their end) are tokenized without an error and no token takes that final newline, then for every text b the source consisting of a, a newline and b is tokenized to the tokens of a followed by the tokens of b, whose positions are shifted by the size of a and by the newlines of a outside tokens; an error or a panic of b is that of b at the shifted place. Without a quote in a, no token takes the newline.", "quantifier": "every text a that is tokenized, every text b", "why_tests_cant": "Two unbounded texts; any lexeme that looks ahead over the end of a line would break it.", "anchors": ["src/lexer/mod.rs:Lexer::tokenize", "src/lexer/position.rs:Position"]}
{"id": "C55", "title": "The tree depends on the kinds of the tokens only", "statement": "Replacing tokens by tokens of the same kind (same keyword, or both identifiers, both literals, both comments, both the question mark, both another symbol, both the same punctuation) without changing which tokens stand on the same line replaces the tokens in the tree and changes nothing else: the parser ends in the same way, with the same nodes and errors, on the replaced tokens. So names, literal values, positions and symbols other than the question mark never influence parsing; whether the parser panics depends on the kinds alone; white space before a source only shifts the positions in its tree.", "quantifier": "every token list, every replacement that keeps kinds and lines", "why_tests_cant": "Names and literals range over infinitely many values and every parser function would have to be tried with all of them; a parser that looks at one particular name breaks it.", "anchors": ["src/parser/mod.rs:Parser::parse", "src/parser/expression", "src/parser/statements", "src/parser/blocks.rs", "src/parser/statement_iterator.rs"]}
{"id": "C56", "title": "Programs are parsed one after the other", "statement": "When the statements of a token list are those of a part made of whole nodes and of statements that open no block, followed by those of another token list that does not begin with an empty statement, then the tree is the nodes of the part followed by the tree of the other list, whatever that list is. In particular an error-free program without empty statements whose last node is not HAI, a function or a switch can be followed by any source on new lines: the tree is its own tree followed by that of the added source, shifted.", "quantifier": "every part made of whole nodes, every token list or source after it", "why_tests_cant": "Two unbounded programs; a parser that carries state from one statement to the next, or that takes a token too many, breaks it only for some pairs.", "anchors": ["src/parser/mod.rs:Parser::parse", "src/parser/blocks.rs:ASTBlock", "src/parser/statement_iterator.rs:StatementIterator::next_statement"]}
{"id": "C57", "title": "Every program can be written down", "statement": "A text in which the spelling of every token is followed by a tab (a single line comment by the end of its line) is tokenized to exactly these token types, those of line i on line i. Every integer in range, f32 but NaN, ASCII string body, name without a keyword at its start, keyword other than the six hidden ones, symbol, comment and punctuation mark can be written so. Hence for every list of statements made of such token types there is a source text with these statements, and every tree (with or without errors, or panic) that parse makes from such tokens is, up to positions, the tree of a source text.", "quantifier": "every list of lines of writable token types, every token list with writable statements", "why_tests_cant": "It is a claim about all token sequences; a lexer that joins two particular neighbours, or a keyword that hides another, breaks it for some sequences only.", "anchors": ["src/lexer/mod.rs:tokenize", "src/lexer/keywords.rs:Keywords", "src/parser/statement_iterator.rs:StatementIterator", "src/lib.rs:tokenize_and_parse"]}
{"id": "C58", "title": "Equality and display of positions, ranges and tokens", "statement": "Two tokens of one source have equal ranges, or are equal (==), only if they are the same token, although == looks at lines and columns only; for tokens of different sources this fails. The derived equality of token types is identity except between floats. Two positions are displayed (or printed with {:?}) alike if and only if they are equal, and the same holds for ranges; within one source positions in token ranges are displayed alike if and only if they are at the same byte. A position is displayed as its line and then its column in decimal digits. Two tokenizer errors are equal if and only if the lines and columns of their ranges are.", "quantifier": "all sources, all pairs of tokens in one result; all positions and ranges", "why_tests_cant": "Pairs of tokens of unbounded sources; columns restart on every line and newlines in strings are not counted, so collisions could occur anywhere.", "anchors": ["src/lexer/position.rs:PartialEq for Position", "src/lexer/range.rs:PartialEq for Range", "src/lexer/token.rs:Token", "src/lexer/position.rs:Display for Position"]}
{"id": "C59", "title": "Every well-formed tree can be written down and is parsed back", "statement": "The trees that parse returns without errors are exactly the well-formed ones: every token has the type of its place, an operation without MKAY stands only at the end of its statement, and the version after HAI has no separators. Each of them can be written down as statements (adding the tokens that the tree does not hold), whatever the positions of its tokens, and parse gives the same tree back; different trees are written down differently. If its tokens can be written down as text, the tree is, up to positions, the tree of a source text.", "quantifier": "all trees of any depth; all error-free programs", "why_tests_cant": "Trees nest without bound; a test shows that some trees come back, not that none is unreachable or ambiguous.", "anchors": ["src/parser/mod.rs:parse", "src/parser/blocks.rs:parse_block", "src/parser/statements/mod.rs", "src/lib.rs:tokenize_and_parse"]}
{"id": "C60", "title": "Parsing takes linear work", "statement": "The parser makes at most 6 calls of the methods of the statement iterator for every token, and 2 more (6 for a single token, 4 if there is no token), counting the calls of next inside next_statement; also when it reports errors or panics. This is sharp: for every number of tokens from two on there is a source text with that many tokens that takes exactly so many calls. It makes at least one call for every token that the tree holds. There are at most as many tokens as characters, so the same holds for the characters of a source text. No input makes it read a token again and again.", "quantifier": "all token lists, all source texts", "why_tests_cant": "A test measures some inputs; a quadratic case could hide in any combination of nested blocks, errors and unfinished operands.", "anchors": ["src/parser/statement_iterator.rs:StatementIterator", "src/parser/blocks.rs:parse_block", "src/parser/mod.rs:parse"]}
{"id": "C61", "title": "The tree is not larger than the program, but as deep as one likes", "statement": "The tree has at most as many nodes, at any depth, as there are tokens, and at most as many expressions, and both bounds are reached for every number of tokens; every error in it holds at least one token. There is no bound on its depth: for every n there are source texts with n nested operators and with n nested conditionals.", "quantifier": "all token lists; all depths", "why_tests_cant": "Trees of unbounded size and depth; an error node without a token or a duplicated node may appear in one combination of errors only.", "anchors": ["src/parser/blocks.rs:parse_block", "src/parser/expression/mod.rs:ASTExpression::parse", "src/parser/error.rs"]}
{"id": "C62", "title": "Equality of trees means same shape and equal tokens", "statement": "The derived == of blocks, nodes and expressions holds if and only if the two trees have the same shape (variants, lengths of lists, optional parts) and their tokens are equal one by one, from left to right; a tree is determined by its shape and its tokens. == is an equivalence when the equality of tokens is. Within the tree of one source text two nodes are == only if they are identical, and nodes at different places are never ==, even if they are written alike. Across sources trees can be == without being identical.", "quantifier": "all trees, all comparisons of tokens; all source texts", "why_tests_cant": "Trees of any size; == is derived for some forty types, and a field that was left out of one comparison would show only in pairs of trees that differ in that field alone.", "anchors": ["src/parser/statements/mod.rs:Node", "src/parser/blocks.rs:ASTBlock", "src/parser/expression/mod.rs:ASTExpression", "src/lexer/token.rs:Token"]}
{"id": "C63", "title": "Parsing respects equality", "statement": "parse takes token lists that are == token by token to trees that are ==, or panics on both at the same place. The same holds for any comparison of tokens that tells kinds of tokens apart, if the statements are equal token by token. In a source text, lines can be replaced by lines with equal tokens and the same number of line breaks, whatever lines follow: the result of tokenize_and_parse is == to that before.", "quantifier": "all pairs of token lists, all pairs of source texts", "why_tests_cant": "A relation between two runs on any two inputs.", "anchors": ["src/parser/mod.rs:parse", "src/lib.rs:tokenize_and_parse", "src/lexer/token.rs:Token"]}
{"id": "C64", "title": "Conversions between tokens, types, values and statements", "statement": "A token converts to a type if and only if it is the keyword of the type, and the type gives the token back; exactly six keywords convert. A token converts to a value if and only if it is a value token, and then the expression parser reads it as that value without looking at more tokens; the keyword NOOB is read as a literal but does not convert; no source text has that keyword token, so the type NOOB never appears in the tree of a source. An iterator made of a list of statements is the iterator of their tokens: the statements are delivered one by one if they are on different lines and have no separators, and otherwise their division is lost.", "quantifier": "all tokens, all lists of statements, all source texts", "why_tests_cant": "All token types and all lists; the last claims are about everything the tokenizer can produce.", "anchors": ["src/parser/expression/identifier.rs:ASTType", "src/parser/expression/mod.rs:ASTExpressionValue", "src/parser/statement_iterator.rs:StatementIterator"]}
{"id": "C65", "title": "White space between tokens can be changed", "statement": "A source text that is tokenized is white space and lexemes in turn, one lexeme per token. If the white space between lexemes is replaced by other white space (by a single space only if no keyword has a space after the lexeme before it, and by white space that starts with a newline after a BTW comment), the token types are the same and the tokens stand at their lexemes; this needs that strings are closed and ASCII and that no symbol token is a digit, sign or point left over from a number. If newlines stand between the same lexemes as before, the tree is the same up to positions, or parse panics on both: parse sees only the token types and which tokens are on the line of the token before. A single space can join words to a keyword, white space after a number or unclosed string at the end of the text changes the tokens, and a newline in place of a space changes the tree.", "quantifier": "all source texts and all ways to change their white space", "why_tests_cant": "A relation between two runs on any two texts.", "anchors": ["src/lexer/mod.rs:tokenize", "src/parser/mod.rs:parse", "src/parser/statement_iterator.rs:StatementIterator", "src/lib.rs:tokenize_and_parse"]}
{"id": "C66", "title": "Float literals have the nearest f32 value", "statement": "The payload of a Float token is the f32 nearest to the decimal number written under its range (the even one of two equally near ones, infinity from the middle between the largest f32 and 2^128 on), with the sign of the literal; it is never NaN. A larger literal never gets a smaller value, two literals for the same number get the same value, and a literal for an f32 number gets this value. Every f32 but NaN is the payload of a token of some source. == between floats is equality of their numbers (so 0.0 == -0.0, and different literals can be ==), and == of tokens is symmetric and transitive, and reflexive on the tokens of any source; it is not reflexive on a token with NaN.", "quantifier": "all literals, all f32 values, all tokens", "why_tests_cant": "There are infinitely many literals and 2^32 values; rounding errors show at few of them.", "anchors": ["src/lexer/mod.rs:parse_number", "src/lexer/token.rs:NumberToken", "src/lexer/token.rs:Token"]}
{"id": "C67", "title": "Exactly which lists of tokens the tokenizer returns", "statement": "A list of token types in which all strings are ASCII is the list of the types of the tokens of some source text exactly if it consists of tokens that can be written, single line comments without newlines, and runs of digit symbols with a last digit other than 0 before a non-negative integer, followed at the end by nothing, an unclosed string, or symbols that are digits with at most one point. In particular every list of tokens that can be written is returned for some text, and after a digit symbol there are only digit symbols and an integer, or only digits and at most one point up to the end.", "quantifier": "all lists of token types with ASCII strings", "why_tests_cant": "That no text at all gives a list of tokens can not be tested.", "anchors": ["src/lexer/mod.rs:tokenize", "src/lexer/mod.rs:parse_number"]}
{"id": "C68", "title": "Changing a statement changes only its own nodes, in any program", "statement": "When two programs differ in one statement that opens no block, ends no block and opens no part of a construct, before and after, then their trees differ only in the nodes of this statement, however deep in loops, functions, cases and branches it is: these are what the statement gives alone, or, if its tokens are not read as a statement, the error with its tokens. The trees are the same only if there is an empty statement before it, or the statement was dropped with a construct that is in error. The new program panics only if the new statement alone does. The same holds up to positions, so that the statement can be changed in the source.", "quantifier": "all token lists, all statements, all depths", "why_tests_cant": "There are unboundedly many programs around a statement, with and without errors.", "anchors": ["src/parser/blocks.rs:parse_block", "src/parser/statements/mod.rs:parse_statement", "src/parser/statements/o_rly.rs", "src/parser/statements/wtf.rs", "src/parser/statements/im_in_yr.rs", "src/parser/statements/how_is_i.rs"]}
{"id": "C69", "title": "What the errors in a tree say", "statement": "Every error in the tree of parse, in the program or in a block at any depth, tells the truth about one statement of the program: the token it holds is where it says that something is missing or wrong, and this is the case (for example, I HAS A is the only token of its statement for MissingIdentifier, the token of MissingYr stands after UPPIN or NERFIN in a loop and is not YR). All tokens of an error are in one statement. MissingR, InvalidOperation and InvalidConditional are never reported; where the functions that would report MissingR are called without R, they report the last token of the variable.", "quantifier": "all token lists, all blocks of the tree, all errors", "why_tests_cant": "Errors can stand in unboundedly many contexts; tests check a few of them and not that no other place can report one wrongly.", "anchors": ["src/parser/error.rs:ASTErrorType", "src/parser/blocks.rs:parse_block", "src/parser/statements/mod.rs:parse_statement", "src/parser/statements/im_in_yr.rs:ImInYrError", "src/parser/statements/i_is.rs:IIzError", "src/parser/statements/assignment.rs:VariableAssignmentError", "src/parser/expression/variable_access.rs:last_token"]}
{"id": "C70", "title": "The stack that parse needs", "statement": "On a stack with room for d nested calls of ASTExpression::parse and parse_block, parse either overflows or gives what it gives on an unlimited stack; a larger stack changes nothing but the overflow. Room for two calls more than there are operators and openings of blocks is always enough. What is parsed without overflow is nested at most d levels deep, and for a program without errors the depth of the tree is exactly the room needed. For every d there are programs, of a single expression and of nested O RLY? only, on which parse overflows. StatementIterator::next takes one call more than there are ellipses in front of the next token.", "quantifier": "all token lists, all stack sizes", "why_tests_cant": "The stack needed grows without bound with the input; a test shows only that one input fits on one stack.", "anchors": ["src/parser/expression/mod.rs:ASTExpression::parse", "src/parser/blocks.rs:parse_block", "src/parser/statement_iterator.rs:next", "src/parser/mod.rs:parse"]}
{"id": "C71", "title": "The work that tokenize does", "statement": "tokenize looks at a number of characters that is at most 4r+377 for each byte of the text, where r is the length of the longest run of digits, whatever the outcome; hence at most quadratically many in the size of the text. Unless it panics it looks at each character at least once. On texts of digits only it does look at n(n+1)/2 characters or more, so that no linear bound holds for all texts.", "quantifier": "all source texts", "why_tests_cant": "A bound on the running time in terms of the size of the input is a claim about inputs of every size; the slow inputs look harmless and are fast when they are short.", "anchors": ["src/lexer/mod.rs:tokenize", "src/lexer/mod.rs:parse_number", "src/lexer/mod.rs:parse_string", "src/lexer/mod.rs:parse_keyword"]}
{"id": "C72", "title": "Parts cut out of a source text", "statement": "If the text of consecutive tokens of a source is cut out and a newline put after it, it has just these tokens, at the places where they stand in the part (for ASCII strings that are closed, and symbols that cannot be part of a number). The text of a statement is a program of this one statement and is parsed, up to positions, as the statement alone; hence the tree of a program in which no statement opens a block is that of the texts of its statements one after the other, and in a program without errors the nodes of a statement that opens or ends no block, at any depth, are what its text gives as a program of its own.", "quantifier": "all source texts that can be tokenized, all parts of their token lists, all statements", "why_tests_cant": "A lexeme is recognised by what follows it, and statements by the lines of the tokens around; that no cut changes anything is a claim about all pairs of a text and a part of it.", "anchors": ["src/lexer/mod.rs:tokenize", "src/parser/statement_iterator.rs:next_statement", "src/parser/blocks.rs:parse_block"]}
{"id": "C73", "title": "What programs without errors are made of", "statement": "In a program that is parsed without errors, up to the first empty statement, every statement starts with HAI, or is O RLY? or WTF?, or consists only of identifiers, values, 'Z, ! and keywords other than MAEK, IS NOW, A, BTW, OBTW, TLDR, WIN, FAIL and HAI; each of the other keywords does occur in such a program. So a program with any other token there is never parsed without errors; in particular one with Windows line ends, since a carriage return outside strings and comments is a token of its own.", "quantifier": "all token lists, all keywords; all source texts with a carriage return outside strings and comments", "why_tests_cant": "That something is never accepted, wherever it stands and whatever stands around it, is a claim about all programs.", "anchors": ["src/lexer/mod.rs:parse_whitespace", "src/parser/statements/mod.rs:parse", "src/parser/expression/mod.rs:parse"]}
{"id": "C74", "title": "String literals with characters of more than one byte", "statement": "The token of a closed string literal is the text between its quotes exactly if that text is ASCII. Otherwise the token has only the characters whose bytes together are as many as the literal has characters, the next character is taken for the closing quote whatever it is, and the tokenizer goes on inside the literal; if there is no ASCII character at that place, tokenize panics, as it always does for a literal of only such characters. With one byte too many and an ASCII character at the end, this character is lost and the closing quote opens a new string.", "quantifier": "all source texts, all string literals in them", "why_tests_cant": "Where the literal is cut depends on all its characters and their widths, and what comes after it on the rest of the text.", "anchors": ["src/lexer/mod.rs:parse_string"]}
{"id": "C75", "title": "The text under the range of an expression", "statement": "In a parsed source, also one with errors, the tokens of an expression or variable access, at any depth, stand next to each other in one statement. The two ends of its range mark off exactly one text of the source, and this text, followed by a newline, is parsed as a program of its own to that expression alone, up to positions; the same holds for assignments. Its strings must be ASCII and closed, and its symbols no part of a number.", "quantifier": "all source texts, all expressions, accesses and assignments of their trees", "why_tests_cant": "It relates two runs of tokenizer and parser for every expression in every program, however deep it is nested and whatever stands around it.", "anchors": ["src/parser/expression/mod.rs:range", "src/parser/statements/assignment.rs:range", "src/lexer/mod.rs:tokenize", "src/parser/blocks.rs:parse_block"]}
{"id": "C76", "title": "What the tree leaves out", "statement": "If a program is parsed without errors, the tree holds, in the order of the source, every token that was parsed except for the markers HAS A, ITZ, YR, TIL, WILE, IM OUTTA YR, IF U SAY SO, OIC and ?, and some of the AN and MKAY. Without ellipses nothing else but the commas is lost. Markers are in no error-free tree that has no HAI, and each of the keywords can indeed be missing.", "quantifier": "all token lists that are parsed without errors", "why_tests_cant": "It accounts for every single token of every program, of any length and nesting; a test compares a few trees.", "anchors": ["src/parser/mod.rs:parse", "src/parser/blocks.rs:parse_block", "src/parser/statements/i_is.rs", "src/parser/statements/im_in_yr.rs", "src/parser/statements/o_rly.rs", "src/parser/statements/wtf.rs", "src/parser/statements/how_is_i.rs"]}
{"id": "C77", "title": "Changing a line of a source text", "statement": "If one statement of a source text, which stands on a line or lines of its own and opens or ends no block, is replaced by another such text of any length, the tokenizer does not fail, the parser panics only if the new line does as a program of its own, and, without positions, the trees are the same except that the one has the nodes of the old line where the other has those of the new line, at any depth. In a program without errors any line that alone has no errors can be put in place of such a line: the new program has no errors.", "quantifier": "all source texts before and after the line, all old and new lines", "why_tests_cant": "It relates the runs of tokenizer and parser on any two sources that differ in one line, wherever the line is; an edit changes every position after it.", "anchors": ["src/lexer/mod.rs:tokenize", "src/parser/mod.rs:parse", "src/parser/blocks.rs:parse_block", "src/parser/statement_iterator.rs"]}
{"id": "C78", "title": "Bodies of constructs are programs", "statement": "Every block of a tree, at any depth and also with errors in it, is the tree of a program of its own: of the statements from its first one up to the one that ends it, which starts with a keyword that ends a block or opens the next part. In a source without empty statements its text, cut out, with a newline after it, is parsed to that block, up to positions. Conversely a program without errors and without empty statements whose last node does not take the next statement, put between the lines of a loop, a function or a conditional, is its body.", "quantifier": "all token lists and source texts, all blocks of their trees; all such programs and all loop and function headers", "why_tests_cant": "It relates the run on a whole source to the run on the text of every body in it, at any depth.", "anchors": ["src/parser/blocks.rs:parse_block", "src/parser/statements/im_in_yr.rs", "src/parser/statements/how_is_i.rs", "src/parser/statements/o_rly.rs", "src/parser/statements/wtf.rs", "src/lexer/mod.rs:tokenize"]}
{"id": "C79", "title": "Lines added at the end of a program", "statement": "When statements, or lines of text, are added at the end of a program, its tree stays as it is and only gets more nodes at its end, with errors, positions and all; the one exception is a last node that is the error of a construct that is not closed (no IM OUTTA YR, IF U SAY SO or OIC), before which all nodes stay. A program on which the parser panics still panics, at the same place of the code, whatever is added.", "quantifier": "all token lists and source texts, all that can be added", "why_tests_cant": "It relates the runs on any program and on every longer one; a parser that looks ahead too far would only be seen for some of the endings.", "anchors": ["src/parser/blocks.rs:parse_block", "src/parser/statement_iterator.rs", "src/parser/statements/im_in_yr.rs", "src/parser/statements/how_is_i.rs", "src/parser/statements/o_rly.rs", "src/parser/statements/wtf.rs", "src/lexer/mod.rs:tokenize"]}
{"id": "C80", "title": "Inserting and deleting lines", "statement": "When one statement of a program that opens no block, ends none and opens no part of a construct is replaced by one or more such statements, the tree changes only there: where the nodes of the old statement were, at whatever depth, there are now the nodes of the new statements, each of which gives what it gives alone. In particular lines of such statements inserted after a line put their nodes, those they have as a program of their own, right after the nodes of that line, and deleting them takes away just these nodes; positions aside, all else in the tree stays as it was. Inserted lines that are parsed alone never make the whole fail. The list of the errors then stays as it is or gets, at one place, just the errors that the inserted lines have alone. So with inserted lines that have no errors alone a program has errors exactly if it has errors without them.", "quantifier": "all programs, all places in them, all numbers of statements", "why_tests_cant": "It relates the runs on any two programs that differ by inserted lines; a parser whose state depended on the number of statements already read, or that took an inserted line for a part of the construct around it, would break it only for certain surroundings.", "anchors": ["src/lexer/mod.rs:tokenize", "src/parser/mod.rs:parse", "src/parser/blocks.rs:parse_block", "src/parser/statement_iterator.rs"]}
{"id": "C81", "title": "Where a panic comes from", "statement": "When the parser panics on a program, one statement is the cause: the tokens before it are a program that is parsed, every program that has the same statements up to and including it panics at the same place of the code whatever follows, and this statement alone panics there too (for a statement that starts with OMG or MEBBE: the tokens after the keyword do). So a program none of whose statements panics alone is parsed. The converse fails: a statement that would panic alone may be skipped, for instance the one after HAI. In a source text the text of this statement (or of its expression), cut out, with a newline after it, panics at the same place too, and the text before it is parsed.", "quantifier": "all token lists, any nesting", "why_tests_cant": "It says that no combination of statements, at any depth and in any order, can make the parser panic if none of them does so alone; tests can only try some combinations.", "anchors": ["src/parser/statements/mod.rs:parse_statement", "src/parser/expression/mod.rs:ASTExpression::parse"]}
{"id": "C82", "title": "Renaming in the source text", "statement": "When names in a source text are replaced by other names that start with a lower case letter or an underscore, and string literals by other ASCII string literals, everywhere the old ones stand and whatever stands directly before or after them, the tokens are the same with the new names and strings in them, and the tree is the same, up to positions, with the new names and strings in it; the parser panics on both programs or on none. Names in capital letters do not have this property: they can become part of a keyword.", "quantifier": "all source texts with ASCII strings, all renamings", "why_tests_cant": "It relates the runs of tokenizer and parser on any two texts that differ by a renaming; lengths, positions and the neighbourhood of every lexeme change.", "anchors": ["src/lexer/mod.rs:parse_identifier", "src/lexer/mod.rs:parse_keyword", "src/parser/mod.rs:Parser::parse", "src/parser/expression", "src/parser/statements", "src/parser/blocks.rs", "src/parser/statement_iterator.rs"]}
{"id": "C83", "title": "Programs that are cut off", "statement": "When some continuation makes a program one without errors, lines that only close what is open do so too: IM OUTTA YR with a label, IF U SAY SO, OIC and empty statements, at most two for every statement and one more, for the parser and in the source text. Such a program, as it stands, is parsed, and its tree has no errors but perhaps one at the end, that of a construct that is not closed. The converse is false: that error hides the errors in the body, and then no continuation helps.", "quantifier": "all programs, all continuations", "why_tests_cant": "It says of any program that has some good continuation that it has one of a fixed simple form; the constructs nest without bound.", "anchors": ["src/parser/mod.rs:Parser::parse", "src/parser/blocks.rs", "src/parser/statements", "src/parser/statement_iterator.rs"]}
{"id": "C84", "title": "Tokenizing again after a change", "statement": "When a source text is changed, the tokens that end at least 9 characters before the change stay as they are (for closed ASCII strings, and symbols that cannot be part of a number), and from any place after the change that is not inside a token of the old or the new text the tokens are the old ones, shifted by the change of length and by the change of line and column of this place. The 9 is exact; for digits there is no bound on how far the tokenizer looks ahead.", "quantifier": "all source texts, all changes", "why_tests_cant": "It compares the tokenizer on any two texts that differ in one part; what comes before and after is unbounded.", "anchors": ["src/lexer/mod.rs:tokenize", "src/lexer/mod.rs:parse_keyword", "src/lexer/mod.rs:parse_identifier", "src/lexer/mod.rs:parse_number", "src/lexer/keywords.rs", "src/lexer/position.rs"]}
{"id": "C85", "title": "How many nodes the statements give", "statement": "Every node of a tree that is no error, at any depth, starts where a statement starts, and no two start in the same statement; their first tokens are first tokens of statements in the same order. Also with errors there are at most as many TooManyTokens errors as statements that are not empty, and at most as many nodes and errors of other kinds, all depths together; so a source text has at most two nodes for every line and every comma. This is reached for every number of lines. In a program without errors the statements that are read are exactly one for every node, one more for every loop, function, conditional and switch, and one for every part of a conditional or switch; the others are empty.", "quantifier": "all token vectors, all source texts", "why_tests_cant": "It bounds the size of the tree for programs of any size and any nesting, with any combination of errors.", "anchors": ["src/parser/mod.rs:parse", "src/parser/blocks.rs:parse_block", "src/parser/statement_iterator.rs", "src/parser/statements"]}
{"id": "C86", "title": "The shortest white space", "statement": "Every stretch of white space between lexemes can be made one character: a newline if it contains one, otherwise a space, or a tab after one of the 37 words that stand before a space in a keyword (HAS, SUM, IM, ...). White space before the first lexeme can be left out and the text ends with a newline. The tokens are the same, the tree is the same up to positions, and the text is no longer than before but for the newline at the end. Doing it again changes nothing, and texts with the same lexemes and with white space and newlines between the same of them become the same text. The list of words is exact: but for the words of ANY OF, each of them stands in a text that has fewer tokens with one space after the word than with two.", "quantifier": "for all source texts that are tokenized, whose strings are closed and ASCII and whose symbols are not part of a number", "why_tests_cant": "a formatter meets any source text; whether a space is safe depends on all keywords and on where the lexemes before it start", "anchors": ["src/lexer/mod.rs", "src/lexer/keywords.rs", "src/parser/statement_iterator.rs", "src/lib.rs"]}
{"id": "C87", "title": "What can follow a program", "statement": "What follows a program, errors in it included, is read in one of four ways, whatever it is: as if it stood alone, its nodes coming after those of the program; or its first statement is thrown away (with a TooManyTokens error when it is not empty) and the rest is read as if it stood alone; or nothing of it is read; or the tree ends in the error of a construct that is not closed. One test decides: when a line GTFO after the program adds the node of GTFO and nothing else, and the tree does not end in such an error, then any lines that do not begin with an empty statement can follow, and the tree of the whole text is that of the program and then that of these lines, shifted; a panic or a failure in them is their own.", "quantifier": "all token vectors and all source texts, with any errors; everything that follows", "why_tests_cant": "A test with one line that follows says nothing about other lines unless reading the program is known not to depend on them.", "anchors": ["src/parser/mod.rs:parse", "src/parser/blocks.rs:parse_block", "src/parser/statement_iterator.rs", "src/parser/statements", "src/lib.rs"]}
{"id": "C88", "title": "Positions with 32 bits", "statement": "With the i32 arithmetic of the code: below 2^31 - 1 bytes both the build with overflow checks and the one without give exactly the tokens, errors, panics and trees of unbounded counters. Without checks, below 2^32 characters, the tokens and the tree are the same with every counter taken modulo 2^32. With checks, the result is that of the other build or an overflow panic; when no lexeme has 2^31 bytes or more, the panic comes exactly when some position on the way does not fit. The bounds are sharp: 2^31 - 1 blanks overflow and fewer do not; a comment of 2^31 bytes gets a negative end column in both builds without a panic, because its length is cast before it is added; and a sign after 2^32 digits is taken as part of the number.", "quantifier": "all source texts (with the bounds stated), both builds", "why_tests_cant": "The differences begin at sources of two gigabytes; a test suite never runs one.", "anchors": ["src/lexer/position.rs:10-59", "src/lexer/mod.rs:15-38", "src/lexer/mod.rs:101-121", "src/lexer/mod.rs:188-376", "src/lib.rs"]}
{"id": "C89", "title": "The tokenizer and the crate, completely specified", "statement": "For every source, tokenize has exactly one outcome, given by a specification that does not mention the tokenizer: white space and lexemes are read one after the other up to the end (the tokens, with types and ranges), up to an OBTW that is never closed (the error, with its range), or up to a place that cannot be sliced (the panic). Wherever text is left, exactly one of white space, lexeme, unclosed comment and unsliceable place is there, and at most one lexeme. The outcome of tokenize_and_parse is the tokenizer's error or panic, or the tree or panic that the grammar (with its errors) gives for the statements of the tokens.", "quantifier": "all source texts", "why_tests_cant": "An equivalence with a specification over all texts: tests compare the outcome on chosen texts and cannot show that no text has another.", "anchors": ["src/lexer/mod.rs:204-376", "src/parser/mod.rs:18-21", "src/lib.rs:76-79"]}
{"id": "C90", "title": "Windows line ends", "statement": "Putting a carriage return before every newline of an ASCII source changes the tokens in exactly one way: on every line but the last there is one more token at the end, the carriage return as a symbol, or the comment that ends the line has it at its end; strings and comments over several lines have it before every newline in their text. Whether the tokenizer reports an unclosed comment does not change. So in a program without commas, ellipses and comments in which no line starts with HAI or the first word of a block, every line that ends in carriage return and newline gives an error, or parse panics.", "quantifier": "all ASCII source texts", "why_tests_cant": "A test has one file with Windows line ends; what happens at each line end depends on the lexeme before it (number, keyword, comment, open string).", "anchors": ["src/lexer/mod.rs:204-376", "src/lexer/mod.rs:parse_whitespace", "src/parser/statement_iterator.rs:StatementIterator"]}
{"id": "C91", "title": "The text held by the tree comes from the source", "statement": "The text in the tokens (names, symbols, strings, comments), one after the other, is a subsequence of the source; so is the text in the tree, error nodes included. So tree and tokens hold no more characters and bytes of text than the source has: nothing is copied twice, however deep the tree is.", "quantifier": "all source texts", "why_tests_cant": "It bounds the memory for text on programs of every size and nesting.", "anchors": ["src/lexer/mod.rs:204-376", "src/parser/mod.rs:18-21", "src/lib.rs:76-79"]}
{"id": "C92", "title": "Blank lines after the end of a source", "statement": "When a source does not end in a digit or a dot, and not in an open string, then a newline and any white space after it change nothing: same tokens with the same positions, same tree; an unclosed comment is still reported (only the end of its range moves) and a panic stays one. Both conditions are needed: VISIBLE 5 at the very end is an error, with a final newline it is not; an open string takes the newline.", "quantifier": "all source texts, all white space after a newline", "why_tests_cant": "Tests try some files with and without a final newline; whether it matters depends on every kind of lexeme that can be last.", "anchors": ["src/lexer/mod.rs:204-376", "src/lexer/mod.rs:parse_number", "src/lexer/mod.rs:parse_string"]}
{"id": "C93", "title": "The list of the errors", "statement": "The errors of a tree, listed from the root with those of inner blocks at their place, are exactly the error nodes of the program and of all its blocks. Without ellipses all tokens of an error start on one line. The errors are listed in the order of the source and do not overlap: every token of an error is behind all tokens of the errors before it.", "quantifier": "all token lists, all source texts, all nesting depths", "why_tests_cant": "The order holds for errors at any depth and in any combination of constructs; a test sees the order of a few errors in one program.", "anchors": ["src/parser/ast_node.rs", "src/parser/error.rs", "src/parser/mod.rs:parse", "src/parser/statement_iterator.rs"]}
{"id": "C94", "title": "A comma is as good as a newline", "statement": "A comma behind lines that have tokens and end neither in an ellipsis nor in a single line comment, and a newline at the same place, give the same result up to positions: the same tree, a tokenizer error, or the same panic. A comma that is a token, with a token other than an ellipsis before it, can be replaced by a newline. A comma before all other tokens does not matter, unless an ellipsis follows it. The exceptions are real: a comma belongs to a comment before it, and it ends a statement that an ellipsis would continue.", "quantifier": "all source texts before and after the comma", "why_tests_cant": "What follows the comma is any text, and what stands before it any lines; keywords with spaces, strings and comments could each be read differently at the border.", "anchors": ["src/lexer/mod.rs:204-376", "src/parser/statement_iterator.rs"]}
{"id": "C95", "title": "Lines continued by an ellipsis", "statement": "In front of any lexeme but a comma, behind white space, an ellipsis and any white space (new lines included) can be put without changing the result up to positions; for token lists: an ellipsis on the line of a token, which with all that follow it then stands on any other lines. A comma is an exception: an ellipsis before it makes one more (empty) statement, which a heading needs. The other way round, an ellipsis before anything but a comma can be taken out with all white space around it and other white space be put there, which has a new line if one stood before the ellipsis, and is a single space only where this joins no two words to a keyword.", "quantifier": "all texts before and after (strings before the ellipsis in ASCII), all white space, all token lists", "why_tests_cant": "The place is any border of two lexemes in any program; tests continue a few lines.", "anchors": ["src/parser/statement_iterator.rs", "src/lexer/mod.rs:204-376"]}
{"id": "C96", "title": "AN and the last MKAY of a statement may be left out", "statement": "When a program is parsed without errors, then so is every program whose statements are its statements without some ANs (an AN before YR must stay) or without some MKAYs at the end of a statement (that of I IZ must stay); up to positions the tree is the same, without these tokens. Two programs without errors that differ only in such ANs have trees that differ only in them.", "quantifier": "all token lists parsed without errors, all choices of the ANs and MKAYs left out", "why_tests_cant": "The words can stand at any depth of any expression of any statement; tests leave out a few.", "anchors": ["src/parser/expression/binary_operations.rs", "src/parser/expression/nary_operation.rs", "src/parser/statements/i_is.rs", "src/parser/statements/how_is_i.rs"]}
{"id": "C97", "title": "Expressions in place of literals", "statement": "In a program that is parsed without errors, any well-formed expressions that do not end with an operation lacking its MKAY can be put in place of literals (not of the literal NOOB, and not after HAI); the program is still parsed without errors and up to positions the tree is the same with the expressions in place of the literals. When the expressions do not end with a variable access either, the converse holds too: the program is parsed without errors exactly if it is with the expressions in place of the literals.", "quantifier": "all token lists (parsed without errors, for the tree), all choices of literals and of expressions", "why_tests_cant": "Any expression can be put at any depth of any statement; tests nest a few.", "anchors": ["src/parser/expression/mod.rs", "src/parser/expression/binary_operation.rs", "src/parser/expression/nary_operations.rs", "src/parser/statements/mod.rs"]}
{"id": "C98", "title": "Words that play the same part", "statement": "Operators with two operands can be exchanged for one another, and so can operators with any number of operands, types other than NOOB, the loop operations UPPIN and NERFIN, and the words the parser does not know: the tree is the same with the exchanged words, errors included, and parse panics on both programs or on none.", "quantifier": "all token lists, with or without errors, all replacements of tokens by tokens that play the same part", "why_tests_cant": "There are 12 binary operators at every place where an expression may be; tests check a few of them in a few places.", "anchors": ["src/parser/expression/mod.rs", "src/parser/expression/binary_operation.rs", "src/parser/expression/nary_operations.rs", "src/parser/statements/im_in_yr.rs"]}
{"id": "C99", "title": "Other keywords in a source text", "statement": "35 of the keywords (listed in the specification) can be written in place of any keyword token of a source text whatever stands before and after it, even directly: the tokens are the same with the new keywords. When the new keywords play the same parts as the old, the tree is the same, up to positions, with the operators, types and loop operations that the new keywords name. For every other keyword there is a text in which it cannot be written in place of a keyword.", "quantifier": "all source texts that are tokenized, with ASCII strings, all replacements of keywords by placeable keywords, all other keywords", "why_tests_cant": "Whether a keyword is found depends on the text before it (HAS ALL OF starts with HAS A) and on the 61 keywords that are tried; tests check a few neighbours.", "anchors": ["src/lexer/mod.rs:parse_keyword", "src/lexer/keywords.rs:Keywords", "src/parser/expression/binary_operation.rs"]}
{"id": "C100", "title": "Lexemes left out of a source text", "statement": "Any lexeme with white space before it and white space or nothing after it can be left out of a source text, the white space staying: the tokens are the same without its token. In the text of a program without errors an AN on the line of the lexeme before it (no YR or ellipsis following) and a MKAY at the end of a statement (not of I IZ or HAI) can be left out: there are no errors then either, and the tree is the same up to positions without that word. If one of two single spaces goes too, words can be joined to a keyword.", "quantifier": "all source texts that are tokenized, with ASCII strings before the lexeme, all lexemes between white space, all programs without errors", "why_tests_cant": "What is left out joins the text before and after it, of which tests have a few; a keyword that reaches over the gap would be found only with the right words on both sides.", "anchors": ["src/lexer/mod.rs:tokenize", "src/lexer/mod.rs:parse_keyword", "src/parser/expression/nary_operations.rs", "src/parser/expression/binary_operation.rs"]}
{"id": "C101", "title": "Expressions in place of literals in a source text", "statement": "In a source text that is parsed without errors, a literal can be replaced by the text of any expression: when the lexeme of a string, number, WIN, FAIL or NOOB (not in a statement that starts with HAI) is replaced by a line without , and ... that alone is read as an expression not ending with an operation without MKAY, and white space that cannot join words to a keyword stands before and after it (or , or ! right behind it), then the new text is parsed without errors and up to positions the tree is the old one with that expression in place of the literal. When the expression does not end with a variable access, the new text is parsed without errors only if the old one is.", "quantifier": "all source texts, all value tokens outside of HAI statements, all texts that are read as one closed expression on a line; lexemes before the literal and of the expression are movable (ASCII closed strings, no symbols that can be part of a number)", "why_tests_cant": "The expression, the statement around it and the program around that are all unbounded, and a word of the expression could join with a word before or after it; a test has one of each.", "anchors": ["src/lexer/mod.rs:tokenize", "src/lexer/mod.rs:parse_keyword", "src/parser/expression/mod.rs", "src/parser/statement_iterator.rs"]}
{"id": "C102", "title": "Inserting a program in a program", "statement": "Lines that are a program without errors, with whole loops, functions, switches and conditionals in it, can be inserted in any source that has a tree, errors in it or not, after any line that is one statement which opens no block, ends none and opens no part of a construct. The source still has a tree; positions aside it is the old one with the nodes of the inserted program right after those of that line, at whatever depth (or it is the old one, when the place is after an empty statement that ends the program or in a construct dropped for an error). The list of the errors stays as it is, so the source has errors with the program exactly if it has errors without it.", "quantifier": "all sources, all places after a plain statement, all error-free programs without empty statements whose last node does not take the next statement", "why_tests_cant": "The inserted program and the nesting around the place are unbounded; a parser that let an inner construct end an outer one, or that kept state from an inner construct, would break it only for certain pairs of programs.", "anchors": ["src/lexer/mod.rs:tokenize", "src/parser/mod.rs:parse", "src/parser/blocks.rs:parse_block", "src/parser/statement_iterator.rs"]}
{"id": "C103", "title": "A program in place of another one", "statement": "In a source without errors, lines that are themselves a program without errors (without empty statements, its last node not taking the next statement) can be exchanged for those of any other such program, wherever they stand: between two statements, or in the body of a loop, a function, a case or a part of a conditional. The new source has a tree without errors; positions aside it is the old one with the nodes of the new program in place of those of the old one (or it is the old one, when the place is after an empty statement that ends the program). So whether a source with a program in it has errors does not depend on the program, a program can be inserted before or after another one or deleted there, and two programs one after the other can be swapped; and a program can be moved from before one program to before another one, whatever lies between.", "quantifier": "all sources, all places, all pairs of error-free programs without empty statements whose last node does not take the next statement", "why_tests_cant": "Both programs and the nesting around them are unbounded; a parser whose reading of a construct depended on what the body before or after contains would break it only for certain pairs of programs and places.", "anchors": ["src/lexer/mod.rs:tokenize", "src/parser/mod.rs:parse", "src/parser/blocks.rs:parse_block", "src/parser/statement_iterator.rs"]}
{"id": "C104", "title": "Lines deleted after a statement", "statement": "From any source that has a tree, with or without errors, lines that follow a statement can be deleted when they are a program without errors (without empty statements, its last node not taking the next statement), or when they are statements that begin no block and no part of one, in error or not: the source without them has a tree, and the two trees differ as in C102 or C80. So with such a program after a statement a source has a tree just when it has one without it, and panics just when it panics without it, at the same place in the code (both also for statements with a tree of their own); and such a program can be exchanged for another one in a source with errors, with the same errors in the same order.", "quantifier": "all sources, all places after a statement that begins no block and no part of one, all such lines", "why_tests_cant": "A panic hidden by lines before it would show only for certain pairs of lines and of sources around them; the lines, the nesting and the errors around them are unbounded.", "anchors": ["src/lexer/mod.rs:tokenize", "src/parser/mod.rs:parse", "src/parser/blocks.rs:parse_block", "src/parser/statement_iterator.rs"]}
{"id": "C105", "title": "Lines put in a loop or a conditional", "statement": "Lines that are a program without errors (without empty statements, its last node not taking the next statement) can be put where they stand between the header and the end of a loop, or between O RLY?, YA RLY and OIC, or taken out of such a construct: the result is such a program again, one node with the program as its body. Two such programs are likewise the two branches of a conditional, and a second branch can be added or taken away. In a source without errors the new source has a tree without errors, which positions aside differs exactly in that node (or not at all, after an empty statement that ends the program); the source with the construct is without errors just when the one without it is. In a source with errors, after a statement, a source has a tree with certain errors just when the source with the loop has one with these errors.", "quantifier": "all sources, all places, all such programs, all headers of loops", "why_tests_cant": "The lines, the header and the nesting around them are unbounded; a parser that reads a construct differently inside another one, or a body differently from a program, would break it only for certain combinations.", "anchors": ["src/lexer/mod.rs:tokenize", "src/parser/mod.rs:parse", "src/parser/blocks.rs:parse_block", "src/parser/statements/im_in_yr.rs:ImInYr::parse", "src/parser/statements/o_rly.rs:ORly::parse"]}
{"id": "C106", "title": "A program with errors of its own inserted and deleted", "statement": "Lines that have a tree, with any errors of their own and with whole constructs, can be inserted after a statement that opens no block and ends none, at any depth, in any source that has a tree, or deleted there, if GTFO on the next line adds the node of GTFO and nothing else, if their tree does not end in the error of a construct that is not closed, and if no statement of them begins with a keyword that ends a block or opens a part of a construct and that is unexpected in their tree (at the top). Every program without errors of C102, and every sequence of statements of C80 that has a tree, is such lines. The new source has a tree, which positions aside is the same or has in addition the nodes of the lines right after those of the statement; if no statement of the source is empty they are there unless they were dropped with a construct in error. The errors of the source stay in their order, with those of the lines together among them or not at all. With the lines the source has a tree just when it has one without them, and panics just when it does without them, at the same place in the code.", "quantifier": "all sources with a tree or a panic, all places after such a statement, all such lines", "why_tests_cant": "The lines, their errors and the nesting around them are unbounded; an error from which the parser recovers at another place inside a block than at the top would break it only for certain combinations.", "anchors": ["src/lexer/mod.rs:tokenize", "src/parser/mod.rs:parse", "src/parser/blocks.rs:parse_block", "src/parser/statement_iterator.rs:StatementIterator"]}
{"id": "C107", "title": "A program with errors as the body of a loop or a conditional", "statement": "Lines with errors of their own, as in C106, can stand between the header and the end of a loop, or between O RLY?, YA RLY and OIC, each a line of its own: the tree is one node, the construct, which positions aside has the nodes of the lines, errors included, as its body; its errors are those of the lines. Two such programs are the two branches of a conditional with NO WAI, whose errors are those of the first and then those of the second. The lines with the construct are again lines as in C106, so that the construct can stand in further constructs, to any depth. After a statement in any source, the source with the loop or the conditional around the lines has a tree just when it has one with the lines alone, and panics just when it does with them, at the same place in the code.", "quantifier": "all lines as in C106, all headers of loops, all sources", "why_tests_cant": "The lines, their errors and the depth are unbounded; an error from which the parser recovers otherwise in the body of a construct than at the top would show only for certain errors.", "anchors": ["src/lexer/mod.rs:tokenize", "src/parser/mod.rs:parse", "src/parser/blocks.rs:parse_block", "src/parser/statements/im_in_yr.rs:ImInYr::parse", "src/parser/statements/o_rly.rs:ORly::parse"]}
{"id": "C108", "title": "Programs with errors as the branches of a conditional with MEBBE", "statement": "Programs with errors of their own, as in C106, can be the branches of a conditional: one after O RLY? and YA RLY, and one after each of any number of lines MEBBE with a condition, with OIC on a line of its own at the end. The tree is one node, the conditional, which positions aside has the nodes of each program, errors included, as the branch it stands in, and the conditions in their order. Its errors are those of the programs, branch by branch. The whole is again lines as in C106, and after a statement in any source it can stand for its first program: the source has a tree just when it has one with that program alone, and panics just when it does so with it, at the same place in the code.", "quantifier": "all programs as in C106, all lists of branches, all conditions, all sources", "why_tests_cant": "The number of branches, the programs and the conditions are unbounded; an error in one branch that ends or spoils another would show only for certain errors.", "anchors": ["src/lexer/mod.rs:tokenize", "src/parser/mod.rs:parse", "src/parser/blocks.rs:parse_block", "src/parser/statements/o_rly.rs:ORly::parse"]}
