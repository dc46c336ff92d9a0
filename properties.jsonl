{"id": "C01", "title": "Tokenizing is lossless", "statement": "Whenever tokenizing a source reports no error (and the source has no `#!` first line), printing every token of every produced token reference, in order, gives back exactly the source text.", "quantifier": "every source string, every set of compiled features, every Lua version set", "why_tests_cant": "sources are unbounded and every interleaving of comments, long strings, escapes and interpolations must be covered", "anchors": ["full-moon/src/tokenizer/lexer.rs:Lexer::collect", "full-moon/src/tokenizer/lexer.rs:Lexer::process_next", "full-moon/src/tokenizer/structs.rs:Display for Token"]}
{"id": "C02", "title": "Every token prints as the slice it was read from, even in sources with errors", "statement": "Every token that the tokenizer returns without an error prints as exactly the characters it consumed, so the tokenizer never invents, drops or reorders characters of a good token, whatever garbage precedes it.", "quantifier": "every source, every tokenizer state, every token of the stream", "why_tests_cant": "holds at each of unboundedly many tokenizer states, including after recovered and fatal errors", "anchors": ["full-moon/src/tokenizer/lexer.rs:Lexer::process_next", "full-moon/src/tokenizer/structs.rs:Display for Token"]}
{"id": "C03", "title": "Token positions are exact", "statement": "Each token's start position has bytes = UTF-8 length of the text before it, line = 1 + number of newlines before it and character = 1 + number of characters since the last newline; the end position has the exact byte offset of the end of the token, and is the start position of the next token unless the token is whitespace ending in a newline, in which case the end stays on the same line, just before the newline character.", "quantifier": "every source including multi-byte characters and CRLF, every token", "why_tests_cant": "depends on unbounded prefixes of the source", "anchors": ["full-moon/src/tokenizer/lexer.rs:LexerSource::next", "full-moon/src/tokenizer/lexer.rs:Lexer::process_next", "full-moon/src/tokenizer/structs.rs:Position"]}
{"id": "C04", "title": "Tokens tile the source", "statement": "In an error-free source consecutive tokens (trivia included) are contiguous: each starts at the byte where the previous ended, the first starts at byte 0 and the last ends at the length of the source.", "quantifier": "every error-free source", "why_tests_cant": "a gap or overlap may appear between any two of unboundedly many tokens", "anchors": ["full-moon/src/tokenizer/lexer.rs:Lexer::process_next", "full-moon/src/tokenizer/lexer.rs:Lexer::process_next_with_trivia"]}
{"id": "C05", "title": "Exactly one end-of-file token, last", "statement": "The token stream of any source without a `#!` line contains exactly one Eof token; it is the last element, it is never a fatal result, and it carries no trailing trivia.", "quantifier": "every source, every version set", "why_tests_cant": "must hold for every source including ones ending in the middle of a comment, string or error", "anchors": ["full-moon/src/tokenizer/lexer.rs:Lexer::process_next", "full-moon/src/tokenizer/lexer.rs:Lexer::process_next_with_trivia", "full-moon/src/tokenizer/lexer.rs:Lexer::collect_trailing_trivia"]}
{"id": "C06", "title": "Tokenizing terminates", "statement": "Tokenizing any source finishes: every call that does not report end of file consumes at least one character and the total number of tokens is at most the number of characters plus one.", "quantifier": "every source, every version set", "why_tests_cant": "termination cannot be observed by finitely many runs", "anchors": ["full-moon/src/tokenizer/lexer.rs:Lexer::process_next", "full-moon/src/tokenizer/lexer.rs:Lexer::collect"]}
{"id": "C07", "title": "Tokenizing never panics", "statement": "Tokenizing any source in any version set returns normally.", "quantifier": "every source, feature set and version set", "why_tests_cant": "a panic needs one specific character in one specific configuration", "anchors": ["full-moon/src/tokenizer/lexer.rs:Lexer::read_string", "full-moon/src/tokenizer/lexer.rs:Lexer::process_next"]}
{"id": "C08", "title": "Streaming interface equals the token list", "statement": "For any sequence of current/peek/consume calls on a Lexer, the results are those of a cursor on one fixed list of token references: current is element k, peek is element k+1, consume returns element k and advances; collect() returns precisely the tokens of the remaining list.", "quantifier": "every source, every interleaving and number of calls", "why_tests_cant": "histories of calls are unbounded", "anchors": ["full-moon/src/tokenizer/lexer.rs:Lexer::new", "full-moon/src/tokenizer/lexer.rs:Lexer::current", "full-moon/src/tokenizer/lexer.rs:Lexer::peek", "full-moon/src/tokenizer/lexer.rs:Lexer::consume", "full-moon/src/tokenizer/lexer.rs:Lexer::collect"]}
{"id": "C09", "title": "Trivia attachment", "statement": "Leading and trailing trivia of every token reference contain only trivia tokens and the token itself is never trivia; trailing trivia never extends past the first newline: the only whitespace token containing a newline is its last element.  Conversely it contains all trivia up to that newline (or up to a comment of CfxLua): what the next token has in front of it starts on the next line.", "quantifier": "every source, every token reference", "why_tests_cant": "comments and whitespace can be interleaved without bound", "anchors": ["full-moon/src/tokenizer/lexer.rs:Lexer::collect_trailing_trivia", "full-moon/src/tokenizer/lexer.rs:Lexer::process_next_with_trivia", "full-moon/src/tokenizer/structs.rs:TokenType::is_trivia"]}
{"id": "C10", "title": "Keywords and identifiers never mix", "statement": "A word (maximal run of letters, digits and underscores not starting with a digit) is tokenized as a keyword exactly when the active version reserves it and as an identifier with the same text otherwise; `goto` is reserved exactly under Lua 5.2+ and LuaJIT.", "quantifier": "every word at every position, every version set", "why_tests_cant": "identifiers are unbounded; the next character after the word matters too", "anchors": ["full-moon/src/tokenizer/lexer.rs:Lexer::process_next", "full-moon/src/tokenizer/structs.rs:Symbol::from_str"]}
{"id": "C11", "title": "Symbol text round trip", "statement": "Printing a symbol and reading it back with from_str in a version where it is enabled returns the same symbol; distinct symbols print differently; from_str only returns symbols enabled for the given version and whose text is the argument.", "quantifier": "every symbol, every string, every feature and version set", "why_tests_cant": "from_str ranges over all strings and 2^12 configurations", "anchors": ["full-moon/src/tokenizer/structs.rs:Symbol::from_str", "full-moon/src/tokenizer/structs.rs:Display for Symbol"]}
{"id": "C12", "title": "Version gating of operators", "statement": "A symbol token is only ever produced in versions that enable it: with only Lua 5.1 active no source yields goto, ::, //, bitwise operators, compound assignments, ->, ?, @ and so on.", "quantifier": "every source, version set and token", "why_tests_cant": "ranges over all sources", "anchors": ["full-moon/src/tokenizer/lexer.rs:Lexer::process_next", "full-moon/src/tokenizer/structs.rs:symbol!"]}
{"id": "C13", "title": "Long brackets close at the first matching bracket", "statement": "The body of a long string or long comment of level n without error never contains the closing bracket of level n, and is closed by it, so the token ends at the first closing bracket of its level.", "quantifier": "every level, every body", "why_tests_cant": "levels and bodies are unbounded", "anchors": ["full-moon/src/tokenizer/lexer.rs:Lexer::read_multi_line_body", "full-moon/src/tokenizer/lexer.rs:Lexer::read_comment"]}
{"id": "C14", "title": "Tokenizer errors point into the source", "statement": "Every tokenizer error carries a range whose start and end are positions of the source with start byte <= end byte, the start being the start of the offending token.", "quantifier": "every source, every error", "why_tests_cant": "errors can occur at any of unboundedly many positions", "anchors": ["full-moon/src/tokenizer/lexer.rs:Lexer::process_next", "full-moon/src/tokenizer/structs.rs:TokenizerError"]}
{"id": "C15", "title": "Number literals are well formed", "statement": "Every error-free decimal number token has at most one decimal point.", "quantifier": "every source, every number token", "why_tests_cant": "number texts are unbounded", "anchors": ["full-moon/src/tokenizer/lexer.rs:Lexer::read_number"]}
{"id": "C16", "title": "TokenReference::symbol accepts exactly symbol text surrounded by whitespace", "statement": "TokenReference::symbol_specific_lua_version(text, v) either fails, or returns a token reference that prints as text, whose token is a symbol enabled in v and whose trivia is only whitespace; and it succeeds on the text of every enabled symbol.", "quantifier": "every string, every version", "why_tests_cant": "ranges over all strings", "anchors": ["full-moon/src/tokenizer/structs.rs:TokenReference::symbol", "full-moon/src/tokenizer/structs.rs:TokenReference::symbol_specific_lua_version"]}
{"id": "C17", "title": "Version sets form a join semilattice with the documented inclusions", "statement": "Combining versions with | is associative, commutative and idempotent, has_x of a union is the disjunction, with_x adds x and whatever x includes and removes nothing; has_lua54 implies has_lua53 implies has_lua52 and has_cfxlua implies has_lua54 for every version set obtainable through the API; nothing is reported for a feature that is not compiled in.", "quantifier": "every set of compiled features, every version built by any sequence of API calls", "why_tests_cant": "2^6 feature sets times unbounded histories of combinators", "anchors": ["full-moon/src/ast/versions.rs:LuaVersion"]}
{"id": "C18", "title": "Parsing is lossless", "statement": "If parse accepts a source then printing the returned Ast gives back the source exactly.", "quantifier": "every source, every feature and version set", "why_tests_cant": "programs are unbounded; each grammar production and each error path may lose a token", "anchors": ["full-moon/src/ast/parser_structs.rs:AstResult::parse_fallible", "full-moon/src/ast/parsers.rs:parse_block", "full-moon/src/ast/mod.rs:Display for Ast", "full-moon/src/lib.rs:parse"]}
{"id": "C19", "title": "Accepted sources keep every token exactly once", "statement": "If parse accepts a source, the tokens of the Ast in print order followed by the Eof token are exactly the token references produced by the tokenizer, in order, with their trivia and positions, with no phantom token added.", "quantifier": "every source, every version set", "why_tests_cant": "as for losslessness, over unbounded programs", "anchors": ["full-moon/src/ast/parser_structs.rs:AstResult::parse_fallible", "full-moon/src/ast/parsers.rs", "full-moon/src/ast/mod.rs"]}
{"id": "C20", "title": "parse succeeds exactly when no error was recorded", "statement": "parse returns Ok exactly when parse_fallible reports no errors, and then returns the same Ast; otherwise it returns exactly the recorded errors. Any tokenizer error in the token stream of the source makes parse fail.", "quantifier": "every source, every version set", "why_tests_cant": "error bookkeeping runs through dozens of recovery paths", "anchors": ["full-moon/src/ast/parser_structs.rs:AstResult::into_result", "full-moon/src/ast/parser_structs.rs:AstResult::parse_fallible", "full-moon/src/lib.rs:parse"]}
{"id": "C21", "title": "Parsing never panics", "statement": "parse_fallible returns normally for every source.", "quantifier": "every source, feature and version set", "why_tests_cant": "a panic needs a specific malformed token at a specific grammar position", "anchors": ["full-moon/src/ast/parser_structs.rs:ParserState::current", "full-moon/src/ast/parser_structs.rs:ParserState::peek", "full-moon/src/ast/parsers.rs", "full-moon/src/ast/parser_structs.rs:AstResult::parse_fallible"]}
{"id": "C22", "title": "Parsing terminates", "statement": "parse_fallible terminates on every source: each iteration of the statement loop and each recursive production consumes input.", "quantifier": "every source, every version set", "why_tests_cant": "termination cannot be tested", "anchors": ["full-moon/src/ast/parser_structs.rs:AstResult::parse_fallible", "full-moon/src/ast/parsers.rs"]}
{"id": "C23", "title": "Operator precedence", "statement": "In every expression produced by the parser, the right operand of a binary operator never contains (outside brackets) an operator of lower precedence, nor one of equal precedence when the operator is left associative; the left operand never contains an operator of lower precedence, nor an equal right-associative one; the operand of a unary operator only contains binary operators of higher precedence than unary.", "quantifier": "every expression of every accepted source", "why_tests_cant": "expression nesting is unbounded", "anchors": ["full-moon/src/ast/parsers.rs:parse_expression_with_precedence", "full-moon/src/ast/parsers.rs:parse_unary_expression", "full-moon/src/ast/mod.rs:BinOp::precedence_of_token", "full-moon/src/ast/mod.rs:BinOp::is_right_associative_token"]}
{"id": "C24", "title": "Binary operator table", "statement": "precedence never panics on a BinOp obtained from the parser, the precedence order is the one of the Lua manual (or < and < comparison < | < ~ < & < shift < .. < +- < */ // % < unary < ^), and exactly .. and ^ are right associative.", "quantifier": "every binary operator token, every feature set", "why_tests_cant": "finite table times every token; parser-obtained operators over all inputs", "anchors": ["full-moon/src/ast/mod.rs:make_bin_op", "full-moon/src/ast/mod.rs:BinOp::is_right_associative", "full-moon/src/ast/mod.rs:UnOp::precedence"]}
{"id": "C25", "title": "Token iteration covers every token once", "statement": "Iterating tokens() of any syntax node yields every token of the node exactly once, i.e. a permutation of the tokens in print order.", "quantifier": "every node of every shape", "why_tests_cant": "trees are unbounded", "anchors": ["full-moon/src/node.rs:Node", "full-moon-derive/src/node.rs:StructTokensGenerator", "full-moon/src/ast/mod.rs:Display"]}
{"id": "C26", "title": "Token iteration works from both ends", "statement": "For any interleaving of next and next_back on the iterator returned by tokens(), the items obtained from the front are a prefix and those from the back a reversed suffix of one fixed list; no token is returned twice or lost, and exhaustion is reported by both ends.", "quantifier": "every tree, every interleaving of calls", "why_tests_cant": "call histories and trees are unbounded", "anchors": ["full-moon/src/node.rs:Tokens::next", "full-moon/src/node.rs:Tokens::next_back"]}
{"id": "C27", "title": "Node ranges cover the node's tokens", "statement": "range() of a node obtained by parsing starts at the start of its first token in print order and ends at the end of its last token in print order.", "quantifier": "every node of every parsed source", "why_tests_cant": "trees are unbounded", "anchors": ["full-moon/src/node.rs:Node::range", "full-moon-derive/src/node.rs:StructRangeGenerator", "full-moon-derive/src/node.rs:EnumRangeGenerator"]}
{"id": "C28", "title": "similar is an equivalence that ignores positions and trivia", "statement": "similar is reflexive, symmetric and transitive on nodes; it does not depend on positions or trivia of tokens, and similar nodes have the same shape and token types in the same order, apart from the separators of lists.", "quantifier": "every pair/triple of nodes", "why_tests_cant": "trees are unbounded", "anchors": ["full-moon/src/node.rs:Node::similar", "full-moon-derive/src/node.rs:StructSimilarGenerator"]}
{"id": "C29", "title": "The default mutable visitor changes nothing", "statement": "Visiting an Ast with a VisitorMut that overrides nothing returns an identical Ast.", "quantifier": "every Ast", "why_tests_cant": "trees are unbounded", "anchors": ["full-moon/src/visitors.rs:VisitorMut", "full-moon/src/ast/visitors.rs", "full-moon/src/ast/luau_visitors.rs", "full-moon-derive/src/visit.rs"]}
{"id": "C30", "title": "Visitors see every token in source order", "statement": "Visiting a node with a visitor calls the token hooks for every token of the node, in print order.", "quantifier": "every Ast", "why_tests_cant": "trees are unbounded", "anchors": ["full-moon/src/visitors.rs:Visitor", "full-moon/src/ast/visitors.rs", "full-moon/src/ast/luau_visitors.rs", "full-moon/src/tokenizer/structs.rs:Visit for TokenReference"]}
{"id": "C31", "title": "Token rewriting visitors act pointwise", "statement": "A VisitorMut that only overrides visit_token with a function f yields the same tree with f applied exactly once to every token and trivia of every node of the block; printing the result is printing f of the tokens.", "quantifier": "every Ast, every token function", "why_tests_cant": "trees and functions are unbounded", "anchors": ["full-moon/src/tokenizer/structs.rs:VisitMut for TokenReference", "full-moon/src/ast/visitors.rs", "full-moon-derive/src/visit.rs"]}
{"id": "C32", "title": "update_positions restores exact positions", "statement": "After update_positions every token has the position obtained by tokenizing the printed text; on a freshly parsed Ast it changes nothing.", "quantifier": "every Ast", "why_tests_cant": "trees and texts are unbounded", "anchors": ["full-moon/src/ast/update_positions.rs:UpdatePositionsRewriter::update_token", "full-moon/src/ast/update_positions.rs:Ast::update_positions"]}
{"id": "C33", "title": "Punctuated behaves like a list of values with separators", "statement": "Under any sequence of push, pop and push_punctuated a Punctuated is observationally a list: len, is_empty, first, last, iteration, into_iter and pairs agree with the list of values, pop undoes push, and every value except possibly the last has its punctuation when built through the parser or push_punctuated.", "quantifier": "every sequence of operations", "why_tests_cant": "histories are unbounded", "anchors": ["full-moon/src/ast/punctuated.rs:Punctuated", "full-moon/src/ast/punctuated.rs:Pair"]}
{"id": "C34", "title": "push_punctuated panics exactly when documented", "statement": "push_punctuated panics exactly when the sequence is empty... or its last pair already has punctuation; otherwise it gives the previous last value the punctuation and appends the new value without punctuation.", "quantifier": "every Punctuated", "why_tests_cant": "histories are unbounded", "anchors": ["full-moon/src/ast/punctuated.rs:Punctuated::push_punctuated"]}
{"id": "C35", "title": "Statement separators and last statement", "statement": "In every block produced for an accepted source, statements appear in source order, and a return/break (or Luau continue) ends its block: it is stored as last_stmt and nothing of the block follows it.", "quantifier": "every accepted source", "why_tests_cant": "nesting is unbounded", "anchors": ["full-moon/src/ast/parsers.rs:parse_block", "full-moon/src/ast/parsers.rs:parse_last_stmt", "full-moon/src/ast/mod.rs:Block"]}
{"id": "C36", "title": "Syntax errors point to real tokens", "statement": "The token of every AST error reported by parse_fallible is a token of the source (its text and position are those of some token the tokenizer produced).", "quantifier": "every source", "why_tests_cant": "error paths are many and nested without bound", "anchors": ["full-moon/src/ast/parser_structs.rs:ParserState::token_error", "full-moon/src/ast/parser_structs.rs:ParserState::require", "full-moon/src/ast/mod.rs:AstError"]}
{"id": "C37", "title": "Phantom tokens have a null position", "statement": "Tokens invented during error recovery have a null position, as documented by parse_fallible.", "quantifier": "every source with errors", "why_tests_cant": "every recovery path", "anchors": ["full-moon/src/lib.rs:parse_fallible", "full-moon/src/tokenizer/structs.rs:TokenReference::basic_symbol"]}
{"id": "C38", "title": "Positions and tokens are ordered consistently with equality", "statement": "Comparing positions (and tokens) is a total preorder by byte offset; cmp is Equal exactly when the values are equal.", "quantifier": "every pair of positions", "why_tests_cant": "infinitely many values", "anchors": ["full-moon/src/tokenizer/structs.rs:Ord for Position", "full-moon/src/tokenizer/structs.rs:Ord for Token"]}
{"id": "C39", "title": "surrounding_trivia is the outermost trivia", "statement": "surrounding_trivia of a node returns the leading trivia of its first token and the trailing trivia of its last token in print order.", "quantifier": "every node", "why_tests_cant": "trees are unbounded", "anchors": ["full-moon/src/node.rs:Node::surrounding_trivia"]}
{"id": "C40", "title": "Reparsing is stable", "statement": "If parse accepts a source losslessly, then parsing the printed text again accepts and yields an identical Ast.", "quantifier": "every accepted source", "why_tests_cant": "programs are unbounded", "anchors": ["full-moon/src/lib.rs:parse", "full-moon/src/ast/mod.rs:Display for Ast"]}
{"id": "C41", "title": "Interpolated string sections nest", "statement": "With Luau active, the interpolated string tokens of an error-free source are well bracketed: middle and end sections only occur after a matching begin, and `{`/`}` inside an interpolation never close it early.", "quantifier": "every source", "why_tests_cant": "nesting is unbounded", "anchors": ["full-moon/src/tokenizer/interpolated_strings.rs:read_interpolated_string_section", "full-moon/src/tokenizer/lexer.rs:Lexer::process_next"]}
{"id": "C42", "title": "Visitor hooks nest", "statement": "The hooks a visitor receives are well nested: every visit_x call for a node is followed by the matching visit_x_end call after all calls for the parts of the node, and none is left open at the end.", "quantifier": "every node of every shape", "why_tests_cant": "trees are unbounded", "anchors": ["full-moon/src/visitors.rs:Visitor", "full-moon/src/ast/visitors.rs:Visit", "full-moon-derive/src/visit.rs:derive"]}
{"id": "C43", "title": "Accepted programs conform to the grammar", "statement": "If parse accepts a source, the returned tree is a derivation of the grammar of the active Lua versions: every node has the parts its production demands, with the keywords and symbols of that production, productions of versions that are not active do not occur, and separators stand exactly between the members of a list.", "quantifier": "every accepted source, every version", "why_tests_cant": "programs are unbounded and every production can nest in every other", "anchors": ["full-moon/src/ast/parsers.rs:parse_block", "full-moon/src/ast/parsers.rs:parse_stmt", "full-moon/src/ast/parsers.rs:parse_expression", "full-moon/src/ast/mod.rs:Ast"]}
{"id": "C44", "title": "Exactly the programs of the Lua grammar are accepted", "statement": "With the Lua versions other than Luau, parse accepts a source exactly if it has no tokenizer error and its tokens are those of a tree of the grammar of the active versions (followed by at most one superfluous last statement), and it returns that tree; the grammar assigns at most one tree to a token sequence.", "quantifier": "every source, every version other than Luau", "why_tests_cant": "programs are unbounded: a test only shows that the programs tried are accepted, not that no program of the grammar is rejected", "anchors": ["full-moon/src/ast/parsers.rs:parse_block", "full-moon/src/ast/parsers.rs:parse_stmt", "full-moon/src/ast/parsers.rs:parse_expression", "full-moon/src/ast/parser_structs.rs:AstResult::parse_fallible"]}
{"id": "C45", "title": "Formatting does not matter", "statement": "If the tokens of two sources only differ in white space, comments and positions, parsing has the same outcome on both: the same tree and the same errors up to white space, comments and positions; in particular one is accepted exactly if the other one is, and the trees are similar.  The one exception is a space directly after the opening brace of an interpolation.", "quantifier": "every pair of sources, accepted or not, every version", "why_tests_cant": "programs and their layouts are unbounded: a test compares a few layouts of a few programs", "anchors": ["full-moon/src/ast/parsers.rs:parse_block", "full-moon/src/ast/parser_structs.rs:ParserState", "full-moon/src/ast/parser_structs.rs:AstResult::parse_fallible"]}
{"id": "C46", "title": "White space and comments can be exchanged", "statement": "Take a source without tokenizer errors and shebang line, and replace the white space and comments around its tokens by any other white space and comments (where two tokens touched, nothing may stay between them; otherwise what stands between two tokens starts with a blank; behind a section of an interpolated string there is something if and only if there was something on its line).  The new text has no tokenizer errors, it has the same tokens with the same texts, and parsing has the same outcome up to white space, comments and positions.", "quantifier": "every source, every choice of white space and comments, every version", "why_tests_cant": "there are unboundedly many layouts of unboundedly many sources, and a reader that looks one character too far goes wrong in few of them", "anchors": ["full-moon/src/tokenizer/lexer.rs:Lexer::process_next", "full-moon/src/tokenizer/lexer.rs:Lexer::process_next_with_trivia", "full-moon/src/lib.rs:parse_fallible"]}
{"id": "C47", "title": "Printed trees are read back", "statement": "A tree that conforms to the grammar (in Luau: one that is the one meant, in the sense of C50), built by hand or from parts of several programs, and printed with white space or comments between its tokens (two tokens may touch if the two alone can be told apart, or more generally if the lexical grammar finds the first one there), is accepted, and the result is that tree up to white space, comments and positions.", "quantifier": "every tree of the grammar, every layout, every version", "why_tests_cant": "trees are unbounded and a generator builds trees no test has seen", "anchors": ["full-moon/src/lib.rs:parse", "full-moon/src/ast/mod.rs:Display for Ast", "full-moon/src/tokenizer/lexer.rs:Lexer::process_next", "full-moon/src/ast/parsers.rs:parse_block"]}
{"id": "C48", "title": "Accessors show what with_* methods set", "statement": "Each with_* method of a node type returns a node that the accessor of the same name (or the accessors documented for it) shows the given value for, while every other accessor shows what it showed before; the method replaces the printed text of that part and of nothing else, the last of two calls of the same method wins, calls of different methods can be exchanged, and two nodes for which all accessors agree are equal.", "quantifier": "every node type with with_* methods, every node of the type, every argument, every sequence of calls", "why_tests_cant": "there are about 150 methods and 150 accessors, over trees of unbounded size; a swapped field shows only if the right pair is tried on the right node", "anchors": ["full-moon/src/ast/mod.rs:For::with_block", "full-moon/src/ast/mod.rs:FunctionBody::with_parameters", "full-moon/src/ast/luau.rs:TypeDeclaration::with_type_name", "full-moon/src/ast/luau.rs:IfExpression::with_condition"]}
{"id": "C49", "title": "Nodes made by constructors can be read back", "statement": "The constructors of syntax nodes never panic; given parts that conform to the grammar and print with white space where it is needed, they make nodes that do so as well (after their blocks, lists and bodies were set with with_* methods), and a tree that does so is parsed, from its printed text, to itself up to white space, comments and positions.", "quantifier": "every constructor, every choice of readable parts, every feature set and every version", "why_tests_cant": "the parts are trees of unbounded size, and whether two tokens run into each other depends on both of them", "anchors": ["full-moon/src/ast/mod.rs:NumericFor::new", "full-moon/src/ast/mod.rs:If::new", "full-moon/src/ast/mod.rs:FunctionBody::new", "full-moon/src/ast/lua52.rs:Goto::new", "full-moon/src/ast/luau.rs:IfExpression::new", "full-moon/src/tokenizer/structs.rs:TokenReference::basic_symbol"]}
{"id": "C50", "title": "Luau programs are accepted, with the reading that is meant", "statement": "With every version including Luau, a source without tokenizer errors whose tokens are those of a tree of the grammar of the active versions is accepted, and the result is that tree.  Where the grammar of Luau gives a token sequence several trees (x :: T < y, A | B & C, f<<T>>(x), types of functions, packs) or a tree has a form the parser documents as unsupported, the tree has to be the reading that is meant, a condition on each node; of the trees for a token sequence at most one is. Conversely, the tree of every source that is accepted without skipping anything meets the condition.", "quantifier": "every source, every version, every tree of the grammar", "why_tests_cant": "Luau programs are unbounded, its types nest in expressions and statements, and whether a construct ends before a token depends on all three; a test only shows that the programs tried are accepted", "anchors": ["full-moon/src/ast/parsers.rs:parse_block", "full-moon/src/ast/parsers.rs:parse_stmt", "full-moon/src/ast/parsers.rs:parse_expression", "full-moon/src/ast/parsers.rs:parse_type", "full-moon/src/ast/parsers.rs:expect_type_declaration", "full-moon/src/ast/parsers.rs:expect_if_else_expression", "full-moon/src/ast/parser_structs.rs:AstResult::parse_fallible"]}
{"id": "C51", "title": "The tokens are those of the lexical grammar", "statement": "The tokenizer finds tokens in a source without reporting an error exactly if the lexical grammar of the active versions divides the source into tokens of these types and texts, white space and comments included: names and keywords that end with the last word character, the longest symbol of the versions, numbers of every form, strings and their escapes, long strings and comments up to the first closing bracket, and the parts of interpolated strings by the braces that are open.  The grammar divides a source in at most one way.", "quantifier": "every source, every version", "why_tests_cant": "sources are unbounded, every token can follow every other, and where a token ends depends on what follows it", "anchors": ["full-moon/src/tokenizer/lexer.rs:Lexer::process_next", "full-moon/src/tokenizer/lexer.rs:Lexer::process_next_with_trivia", "full-moon/src/tokenizer/lexer.rs:Lexer::read_number", "full-moon/src/tokenizer/lexer.rs:Lexer::read_string", "full-moon/src/tokenizer/lexer.rs:Lexer::read_comment", "full-moon/src/tokenizer/interpolated_strings.rs:read_interpolated_string_section"]}
{"id": "C52", "title": "Each hook of a visitor is called once per node, and its result is used", "statement": "Visiting a tree calls the hook of a node type once for each node of that type in the tree, and mutable visitors receive the same calls on nodes, in the same order, as immutable ones.  What the visit_x_end hooks and visit_token of a mutable visitor return is what the resulting tree consists of: every token and trivia is replaced by its image, and every node, after its parts, by its image.  (The hooks on tokens differ for the commas between names and for type instantiations, annotations in excess of the names are not visited, and visit_contained_span is never called.)", "quantifier": "every tree, every node type, every visitor", "why_tests_cant": "trees are unbounded, and a forgotten field of one of about 90 node types only shows on the trees that have it", "anchors": ["full-moon/src/visitors.rs:create_visitor", "full-moon/src/visitors.rs:Visit", "full-moon/src/visitors.rs:VisitMut", "full-moon/src/ast/visitors.rs:FunctionBody::visit", "full-moon/src/ast/luau_visitors.rs:TypeInfo::visit", "full-moon-derive/src/visit.rs:VisitGenerator"]}
{"id": "C53", "title": "Errors say where they are", "statement": "The range of every error reported by parse or parse_fallible is a part of the source: it starts at a position of the source, ends at one, and starts no later than it ends.  A tokenizer error covers a nonempty part of the source; a syntax error covers whole tokens.  The text printed for an error tells the lines and characters of its range.", "quantifier": "every source, every version", "why_tests_cant": "the ends of a range are taken from tokens of unbounded statements, some of which error recovery has added", "anchors": ["full-moon/src/lib.rs:Error::range", "full-moon/src/ast/mod.rs:AstError::range", "full-moon/src/ast/parser_structs.rs:ParserState::token_error_ranged", "full-moon/src/ast/parsers.rs:expect_block_with_end", "full-moon/src/ast/parser_structs.rs:ParserState::require_with_reference_range"]}
{"id": "C54", "title": "A source is accepted exactly if it is a program, character by character", "statement": "The sources without a #! line that are accepted (with no part skipped silently) are exactly those whose characters the lexical grammar divides into tokens which, with positions counted from the characters and trivia given to the token on its line, are the tokens of a tree of the grammar of the active versions - in Luau with the reading that is meant - and the end of the file; that tree, with these positions and this trivia, is the result.  A source has at most one such tree.", "quantifier": "every source, every version, every tree", "why_tests_cant": "sources and trees are unbounded; a test only shows the reading of the sources tried, and a description of the language independent of the tokenizer and parser has nothing to run", "anchors": ["full-moon/src/ast/parser_structs.rs:AstResult::parse_fallible", "full-moon/src/tokenizer/lexer.rs:Lexer::process_next_with_trivia", "full-moon/src/tokenizer/lexer.rs:Lexer::collect_trailing_trivia", "full-moon/src/tokenizer/lexer.rs:Lexer::process_next", "full-moon/src/lib.rs:parse", "full-moon/src/ast/parsers.rs:parse_block"]}
{"id": "C55", "title": "Mutable visitors that replace nodes on the way down", "statement": "What a visit_x hook of a mutable visitor returns takes the place of the node: its parts are visited next, the node itself is not passed to the hook again, and visit_x_end is called with it once its parts are done.  So a visit by hooks pre (visit_x), h (visit_token) and g (visit_x_end) gives the tree in which nodes have been replaced by pre from the root downwards and then tokens by h and nodes by g from the tokens upwards; the resulting tree has the same type.  It ends whenever the parts of what replaces a node are smaller, by any measure, than the node was - in particular if no node is replaced by a larger one; it need not end otherwise.", "quantifier": "every tree, every visitor whose visit_x hooks replace nodes by a function, every state of the visitor", "why_tests_cant": "trees and visitors are unbounded, and a visit that does not end is not seen by running it", "anchors": ["full-moon/src/visitors.rs:VisitorMut", "full-moon/src/visitors.rs:VisitMut", "full-moon/src/visitors.rs:VisitorMut::visit_ast", "full-moon-derive/src/visit.rs:VisitGenerator", "full-moon/src/ast/visitors.rs:LocalAssignment::visit_mut", "full-moon/src/ast/visitors.rs:FunctionBody::visit_mut"]}
{"id": "C56", "title": "What serde stores can be read back", "statement": "With the serde feature (on by default), an Ast, a node, an error or a result of the tokenizer that is serialized to a self-describing format and deserialized from it, by the same build of the library, is what it was before: every token, trivia and position, and all parts of each node.", "quantifier": "every tree with every feature set, every token, every error", "why_tests_cant": "there are about 90 node types with some 300 fields, several of which are left out under conditions, over trees of unbounded size; a field that is left out but required shows only on the trees that have it", "anchors": ["full-moon/src/ast/mod.rs:Ast", "full-moon/src/ast/mod.rs:LocalAssignment", "full-moon/src/ast/mod.rs:GenericFor", "full-moon/src/tokenizer/structs.rs:TokenType", "full-moon/src/tokenizer/structs.rs:TokenReference", "full-moon/src/util.rs:empty_optional_vector", "full-moon/src/util.rs:vec_empty_or_all_none", "full-moon/src/lib.rs:Error", "full-moon/src/ast/mod.rs:AstError"]}
{"id": "C57", "title": "What serde stores determines the printed source", "statement": "Two trees of the same node type that serialize to the same data have the same tokens, with the same trivia and positions, and print the same text; so nothing of the source is lost in storage, even where reading back fails.", "quantifier": "every two trees of every node type, every feature set", "why_tests_cant": "pairs of trees of unbounded size; two different trees that are stored alike are not found by trying", "anchors": ["full-moon/src/ast/mod.rs:Ast", "full-moon/src/ast/mod.rs:LocalAssignment", "full-moon/src/ast/punctuated.rs:Pair", "full-moon/src/tokenizer/structs.rs:TokenType"]}
{"id": "C58", "title": "Results say whether there were errors", "statement": "Each result of the tokenizer either has a value and no error or has at least one error: unwrap returns the value in the first case and panics in the second, unwrap_errors the other way round, and errors returns the errors there are.  collect, after any calls, has a value exactly if none of the remaining results has an error, and has all their errors otherwise.  parse returns the tree exactly if parse_fallible has no errors, and the errors otherwise.", "quantifier": "every source, every version, every sequence of calls", "why_tests_cant": "sources and histories are unbounded, and an error that is not passed on is not seen by checking results that have a value", "anchors": ["full-moon/src/tokenizer/lexer.rs:LexerResult::unwrap", "full-moon/src/tokenizer/lexer.rs:LexerResult::unwrap_errors", "full-moon/src/tokenizer/lexer.rs:LexerResult::errors", "full-moon/src/tokenizer/lexer.rs:Lexer::collect", "full-moon/src/ast/parser_structs.rs:AstResult::errors", "full-moon/src/ast/parser_structs.rs:AstResult::into_ast"]}
{"id": "C59", "title": "Token accessors return the tokens they are named after", "statement": "In every tree that parse_fallible returns, also for a source with errors and also where a token was missing and the parser made one up, the token an accessor of a node returns is what the node's syntax has in that place: while_token() is a while keyword, the parentheses of a call are ( and ), the name of a local function is an identifier, a binary operator's token is that operator, the elements of a list are separated by the separators of that list.  (One exception, after an error for it: the punctuation of a function's return type may be ->.)", "quantifier": "every source, every version, every node of the tree", "why_tests_cant": "sources are unbounded and so are the ways in which they can be wrong; each place where the parser gives up or invents tokens is reached by its own kinds of errors", "anchors": ["full-moon/src/ast/parser_structs.rs:AstResult::parse_fallible", "full-moon/src/ast/parsers.rs:expect_while_loop", "full-moon/src/ast/parsers.rs:expect_if", "full-moon/src/ast/parsers.rs:expect_function_declaration", "full-moon/src/ast/parsers.rs:parse_function_body", "full-moon/src/ast/parsers.rs:expect_interpolated_string", "full-moon/src/ast/parser_structs.rs:ParserState::require_with_reference_range"]}
{"id": "C60", "title": "Later versions accept earlier programs", "statement": "A program that parse accepts under one combination of versions is accepted, with the identical tree (tokens, positions, trivia), when further versions other than Luau are added - from Lua 5.1 to 5.2, 5.3, 5.4, LuaJIT or CfxLua - provided no name in it becomes a keyword (goto) and no number is directly followed by a character with which it would go on (a point or p behind a hexadecimal number from 5.2 on, a LuaJIT suffix).  From 5.2 on, adding 5.3, 5.4 or CfxLua needs no proviso.  So adding a version never changes how a program that still parses in this sense is read: no two tokens are joined to a new operator, and no new construct takes over.", "quantifier": "every source without a #! line, every two combinations of versions of one build, the second with more than the first and without Luau", "why_tests_cant": "sources are unbounded; a version test shows only that the sources tried are read alike, and new operators, long before they are used, could change the reading of characters that meet by chance", "anchors": ["full-moon/src/ast/versions.rs:LuaVersion", "full-moon/src/lib.rs:parse_fallible", "full-moon/src/tokenizer/lexer.rs:Lexer::process_next", "full-moon/src/tokenizer/lexer.rs:Lexer::read_number", "full-moon/src/ast/parsers.rs:parse_stmt", "full-moon/src/ast/parsers.rs:parse_expression_with_precedence", "full-moon/src/tokenizer/structs.rs:Symbol"]}
{"id": "C61", "title": "Luau accepts the programs of Lua 5.1", "statement": "A program that parse accepts as Lua 5.1 is accepted as Luau (alone or with other versions), provided no name becomes a keyword (goto, only if 5.2 or LuaJIT are added too), no number is directly followed by a character with which it would go on (_ , or b behind 0, and those of the other versions), and it has no string in backticks (a leniency of builds with CfxLua).  The tree is the same, with the same tokens, positions and trivia, except that FunctionBody::type_specifiers has an additional None for a ... parameter; it is identical if no function has one.  So names like type, export and continue are still read as names.", "quantifier": "every source without a #! line, every build with Luau, every combination of versions with Luau", "why_tests_cant": "sources are unbounded; Luau has words that are keywords only in some places, types that start with <, {, ( or :, and compound operators, and each could take over part of a program of Lua 5.1", "anchors": ["full-moon/src/ast/versions.rs:LuaVersion", "full-moon/src/lib.rs:parse_fallible", "full-moon/src/tokenizer/lexer.rs:Lexer::process_next", "full-moon/src/tokenizer/lexer.rs:Lexer::read_number", "full-moon/src/ast/parsers.rs:parse_stmt", "full-moon/src/ast/parsers.rs:parse_last_stmt", "full-moon/src/ast/parsers.rs:parse_function_body"]}
{"id": "C62", "title": "Parts of programs are programs", "statement": "The text of any block of a program that parse accepts (the body of a function, of a loop, of a branch), as it stands in the source, is accepted by itself, and so is the text of any statement and any return, break or continue; the text of any expression is accepted behind return and a line break.  What is read is the part itself: the tree equals the one the whole program has there, up to positions, all tokens have the same leading and trailing trivia, and nothing is left behind it.", "quantifier": "every source without a #! line, every version, every block, statement and expression at any depth", "why_tests_cant": "sources and trees are unbounded; how a part is read could depend on what stands around it (open braces of interpolated strings, the characters and the line behind it, the statement in front, the precedence of operators around it)", "anchors": ["full-moon/src/lib.rs:parse_fallible", "full-moon/src/tokenizer/lexer.rs:Lexer::process_next", "full-moon/src/tokenizer/lexer.rs:Lexer::collect", "full-moon/src/ast/parsers.rs:parse_block", "full-moon/src/ast/parsers.rs:parse_stmt", "full-moon/src/ast/parsers.rs:parse_expression", "full-moon/src/ast/parsers.rs:expect_interpolated_string"]}
{"id": "C63", "title": "Sections of interpolated strings", "statement": "In every program accepted as Luau, an interpolated string without expressions is one token; any other starts with a section that opens it and ends with one that closes it, and the sections between them stand between a } and a {, so there is one expression in each pair of braces and every string that is opened is closed.", "quantifier": "every source without a #! line, every version with Luau, every interpolated string at any depth", "why_tests_cant": "sources are unbounded and interpolated strings nest to any depth; a string that is wrongly taken as part of another one is accepted silently", "anchors": ["full-moon/src/ast/parsers.rs:expect_interpolated_string", "full-moon/src/ast/luau.rs:InterpolatedString", "full-moon/src/ast/luau.rs:InterpolatedStringSegment", "full-moon/src/tokenizer/interpolated_strings.rs:read_interpolated_string_section"]}
{"id": "C64", "title": "A #! line makes no difference", "statement": "Put a #! line in front of a source that has no tokenizer errors and starts with a line break (or is empty).  The line becomes the first leading trivia of the first token, all other tokens and trivia stay as they are, and parsing does the same: the same tree up to positions and trivia, the same errors and messages, the same panics.  If the source was accepted, it still is, and the tree prints as the line followed by what it printed before.", "quantifier": "every #! line, every source without tokenizer errors, every version", "why_tests_cant": "lines and sources are unbounded; the line is read by a path of its own in the tokenizer, before the first token is looked at", "anchors": ["full-moon/src/tokenizer/lexer.rs:Lexer::new", "full-moon/src/tokenizer/lexer.rs:Lexer::new_lazy", "full-moon/src/tokenizer/lexer.rs:Lexer::process_first_with_trivia", "full-moon/src/lib.rs:parse_fallible"]}
{"id": "C65", "title": "Programs can be put one behind the other", "statement": "If two programs are accepted, the first one ends with a line break and has no last statement (return, break, continue), and the second one does not start with ( nor, in Luau, with ::, then the first text followed by the second is accepted, as a block with the statements of the first and then those of the second.  All tokens keep their trivia; comments and blank lines at the end of the first file become leading trivia of the first token of the second one.", "quantifier": "every two sources without #! lines, every version", "why_tests_cant": "both sources are unbounded; what the first one leaves behind in the tokenizer (open braces of interpolated strings, an unfinished line) or in the parser (an expression that could go on) could change how the second one is read", "anchors": ["full-moon/src/lib.rs:parse_fallible", "full-moon/src/tokenizer/lexer.rs:Lexer::process_next", "full-moon/src/tokenizer/lexer.rs:Lexer::process_next_with_trivia", "full-moon/src/tokenizer/lexer.rs:Lexer::collect_trailing_trivia", "full-moon/src/ast/parsers.rs:parse_block", "full-moon/src/ast/parsers.rs:parse_stmt", "full-moon/src/ast/parsers.rs:parse_expression"]}
{"id": "C66", "title": "Blocks of programs can be exchanged", "statement": "Take any block of an accepted program (the body of a function, of a loop, of a branch, or all of it) and put any block of another accepted program in its place, as a visitor does with with_block.  Every text with the tokens of the resulting tree, in order and with any white space and comments between them that keeps them apart, is accepted, and it is read as that tree; for instance, if no interpolated strings are in it, its tokens with one space behind each.  (It is different with expressions: x in x * y replaced by a + b is read as a + (b * y).)", "quantifier": "every two sources without #! lines, every version, every two blocks at any depth, also those inside expressions and types", "why_tests_cant": "sources, depths and contexts are unbounded; how the code around a block is read could depend on what is in the block (whether a call or a type assertion goes on behind it, how operators around it bind)", "anchors": ["full-moon/src/lib.rs:parse", "full-moon/src/ast/mod.rs:Block", "full-moon/src/ast/mod.rs:FunctionBody::with_block", "full-moon/src/ast/parsers.rs:parse_block", "full-moon/src/ast/parsers.rs:parse_stmt", "full-moon/src/ast/parsers.rs:parse_expression", "full-moon/src/ast/parsers.rs:parse_function_body"]}
{"id": "C67", "title": "The text of a block can be exchanged", "statement": "Cut the text of any block out of an accepted program, with the white space and comments in it, and paste the text of any block of another accepted program in its place.  If a line ends in front of the block, the new text ends with a line break or is empty, and there are no interpolated strings in the two blocks, then the result is accepted.  It is read as the tree with the block exchanged, and every token has the leading and trailing trivia it had in the file it comes from.", "quantifier": "every two sources without #! lines, every version, every two blocks at any depth, also those inside expressions and types", "why_tests_cant": "sources, depths and contexts are unbounded; the pasted text could change how the characters around it are divided into tokens and to which token white space and comments belong", "anchors": ["full-moon/src/lib.rs:parse_fallible", "full-moon/src/ast/mod.rs:Block", "full-moon/src/tokenizer/lexer.rs:Lexer::process_next", "full-moon/src/tokenizer/lexer.rs:Lexer::process_next_with_trivia", "full-moon/src/tokenizer/lexer.rs:Lexer::collect_trailing_trivia", "full-moon/src/ast/parsers.rs:parse_block"]}
{"id": "C68", "title": "Errors about stray tokens", "statement": "Every syntax error of parse_fallible has a message that is not empty.  A token that cannot begin a statement is reported with a message of its own and skipped: such errors never stand directly behind each other in the list, so a run of such tokens is reported only once; they are about tokens of the source, in the order of the source and none of them twice, never about the end of the file; and their range is that of the token.", "quantifier": "every source, every version", "why_tests_cant": "sources with errors are unbounded and the parser has some hundred places that record an error; whether a token is reported depends on all errors before it", "anchors": ["full-moon/src/ast/parser_structs.rs:AstResult::parse_fallible", "full-moon/src/ast/parser_structs.rs:ParserState::token_error", "full-moon/src/ast/mod.rs:AstError"]}
{"id": "C69", "title": "Statements in front of an error are kept", "statement": "Take a program that is accepted, ends with a line break and has no last statement, and put any text behind it that has no tokenizer errors and whose first token is a name, a keyword that begins a statement or ends a block, or the end of the file (or end the program with a semicolon).  Whatever syntax errors the text has, the tree that parse_fallible returns starts with exactly the statements of the program, in order, with their trivia and at their positions; statements can only be added behind them.  If the program has a last statement, the tree keeps it as its last statement (provided the text starts with a token that ends a block, with return or break, or with a name that is not the value of the return), and an error reports any statement behind it.", "quantifier": "every two sources without a #! line and without tokenizer errors, every version", "why_tests_cant": "both texts are unbounded; error recovery could drop, change or reorder statements that were read before the error", "anchors": ["full-moon/src/lib.rs:parse_fallible", "full-moon/src/ast/parser_structs.rs:AstResult::parse_fallible", "full-moon/src/ast/parsers.rs:parse_block", "full-moon/src/ast/parsers.rs:parse_stmt", "full-moon/src/ast/mod.rs:Block::merge_blocks"]}
{"id": "C70", "title": "Names, numbers and strings do not matter to the parser", "statement": "If the tokens of two sources only differ in white space, comments, positions and in which names, numbers and strings they are (except for the names type, export, continue, read, write and typeof, which Luau gives a meaning), then parsing does the same on both, with or without errors: the trees have the same form, and there are as many errors, with the same messages and at the same tokens.  So one is accepted if and only if the other one is; if they are accepted and nothing is skipped, the n-th token of the one has the same place in its tree as the n-th token of the other; in particular names can be replaced by other names throughout an accepted program, and the new tree is the old one with the names replaced.", "quantifier": "every two such sources, every version", "why_tests_cant": "sources are unbounded and so are names, numbers and strings; any of the parser's functions could treat a particular text differently", "anchors": ["full-moon/src/lib.rs:parse_fallible", "full-moon/src/ast/parser_structs.rs:AstResult::parse_fallible", "full-moon/src/ast/parsers.rs:parse_stmt", "full-moon/src/ast/parsers.rs:parse_primary_expression", "full-moon/src/ast/parsers.rs:parse_simple_type"]}
{"id": "C71", "title": "The first tokenizer error is where the source stops being made of tokens", "statement": "Read a source from its beginning, token by token, by the lexical grammar.  If this comes to the end, the tokenizer reports no error; if it comes to a place where something is left and no token of the grammar can be read, it does, and the first error it reports, and that parse_fallible reports, starts exactly at that place.  All results in front of the place are the tokens of the grammar.  Moreover every token that is returned without an error, anywhere in the source, also behind errors, is a token of the grammar at the place where it says it is.", "quantifier": "every source without a #! line, every version", "why_tests_cant": "sources are unbounded; a place where nothing can be read is a statement about all tokens and all texts behind it", "anchors": ["full-moon/src/tokenizer/lexer.rs:Lexer::process_next", "full-moon/src/tokenizer/lexer.rs:Lexer::process_next_with_trivia", "full-moon/src/tokenizer/structs.rs:TokenizerError", "full-moon/src/lib.rs:parse_fallible"]}
{"id": "C72", "title": "Every visitor hook belongs to one type of node", "statement": "The hooks a visitor's methods implement are told apart by their names: two types of nodes never call the same hook, the hook called before the parts of a node is never one called after those of another, the traits have the hooks that the types of nodes call, and declare them for nodes of exactly this type.  For types a user of the derive macro adds, hooks are equal only if the names of the types are, and the first hook of one is the last of another only if its name is the other's followed by End.", "quantifier": "every pair of type names; every type of node", "why_tests_cant": "the names are made from type names by a macro; there are infinitely many names, and a collision would only show as calls of the wrong hook", "anchors": ["full-moon-derive/src/visit.rs:snake_case", "full-moon-derive/src/visit.rs:VisitGenerator", "full-moon/src/visitors.rs:create_visitor"]}
