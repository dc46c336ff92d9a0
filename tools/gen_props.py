import json
P=[]
def p(title, statement, quantifier, why, anchors):
    P.append(dict(id=f"C{len(P)+1:02d}", title=title, statement=statement, quantifier=quantifier, why_tests_cant=why, anchors=anchors))
L="full-moon/src/tokenizer/lexer.rs"; S="full-moon/src/tokenizer/structs.rs"; I="full-moon/src/tokenizer/interpolated_strings.rs"
PS="full-moon/src/ast/parser_structs.rs"; PA="full-moon/src/ast/parsers.rs"; AM="full-moon/src/ast/mod.rs"; PU="full-moon/src/ast/punctuated.rs"
N="full-moon/src/node.rs"; UP="full-moon/src/ast/update_positions.rs"; V="full-moon/src/ast/versions.rs"; VI="full-moon/src/visitors.rs"; AV="full-moon/src/ast/visitors.rs"; LV="full-moon/src/ast/luau_visitors.rs"
p("Tokenizing is lossless",
  "Whenever tokenizing a source reports no error (and the source has no `#!` first line), printing every token of every produced token reference, in order, gives back exactly the source text.",
  "every source string, every set of compiled features, every Lua version set",
  "sources are unbounded and every interleaving of comments, long strings, escapes and interpolations must be covered",
  [f"{L}:Lexer::collect",f"{L}:Lexer::process_next",f"{S}:Display for Token"])
p("Every token prints as the slice it was read from, even in sources with errors",
  "Every token that the tokenizer returns without an error prints as exactly the characters it consumed, so the tokenizer never invents, drops or reorders characters of a good token, whatever garbage precedes it.",
  "every source, every tokenizer state, every token of the stream",
  "holds at each of unboundedly many tokenizer states, including after recovered and fatal errors",
  [f"{L}:Lexer::process_next",f"{S}:Display for Token"])
p("Token positions are exact",
  "Each token's start position has bytes = UTF-8 length of the text before it, line = 1 + number of newlines before it and character = 1 + number of characters since the last newline; the end position has the exact byte offset of the end of the token, and is the start position of the next token unless the token is whitespace ending in a newline, in which case the end stays on the same line, just before the newline character.",
  "every source including multi-byte characters and CRLF, every token",
  "depends on unbounded prefixes of the source",
  [f"{L}:LexerSource::next",f"{L}:Lexer::process_next",f"{S}:Position"])
p("Tokens tile the source",
  "In an error-free source consecutive tokens (trivia included) are contiguous: each starts at the byte where the previous ended, the first starts at byte 0 and the last ends at the length of the source.",
  "every error-free source", "a gap or overlap may appear between any two of unboundedly many tokens",
  [f"{L}:Lexer::process_next",f"{L}:Lexer::process_next_with_trivia"])
p("Exactly one end-of-file token, last",
  "The token stream of any source without a `#!` line contains exactly one Eof token; it is the last element, it is never a fatal result, and it carries no trailing trivia.",
  "every source, every version set", "must hold for every source including ones ending in the middle of a comment, string or error",
  [f"{L}:Lexer::process_next",f"{L}:Lexer::process_next_with_trivia",f"{L}:Lexer::collect_trailing_trivia"])
p("Tokenizing terminates",
  "Tokenizing any source finishes: every call that does not report end of file consumes at least one character and the total number of tokens is at most the number of characters plus one.",
  "every source, every version set", "termination cannot be observed by finitely many runs",
  [f"{L}:Lexer::process_next",f"{L}:Lexer::collect"])
p("Tokenizing never panics",
  "Tokenizing any source in any version set returns normally.",
  "every source, feature set and version set", "a panic needs one specific character in one specific configuration",
  [f"{L}:Lexer::read_string",f"{L}:Lexer::process_next"])
p("Streaming interface equals the token list",
  "For any sequence of current/peek/consume calls on a Lexer, the results are those of a cursor on one fixed list of token references: current is element k, peek is element k+1, consume returns element k and advances; collect() returns precisely the tokens of the remaining list.",
  "every source, every interleaving and number of calls", "histories of calls are unbounded",
  [f"{L}:Lexer::new",f"{L}:Lexer::current",f"{L}:Lexer::peek",f"{L}:Lexer::consume",f"{L}:Lexer::collect"])
p("Trivia attachment",
  "Leading and trailing trivia of every token reference contain only trivia tokens and the token itself is never trivia; trailing trivia never extends past the first newline: the only whitespace token containing a newline is its last element.  Conversely it contains all trivia up to that newline (or up to a comment of CfxLua): what the next token has in front of it starts on the next line.",
  "every source, every token reference", "comments and whitespace can be interleaved without bound",
  [f"{L}:Lexer::collect_trailing_trivia",f"{L}:Lexer::process_next_with_trivia",f"{S}:TokenType::is_trivia"])
p("Keywords and identifiers never mix",
  "A word (maximal run of letters, digits and underscores not starting with a digit) is tokenized as a keyword exactly when the active version reserves it and as an identifier with the same text otherwise; `goto` is reserved exactly under Lua 5.2+ and LuaJIT.",
  "every word at every position, every version set", "identifiers are unbounded; the next character after the word matters too",
  [f"{L}:Lexer::process_next",f"{S}:Symbol::from_str"])
p("Symbol text round trip",
  "Printing a symbol and reading it back with from_str in a version where it is enabled returns the same symbol; distinct symbols print differently; from_str only returns symbols enabled for the given version and whose text is the argument.",
  "every symbol, every string, every feature and version set", "from_str ranges over all strings and 2^12 configurations",
  [f"{S}:Symbol::from_str",f"{S}:Display for Symbol"])
p("Version gating of operators",
  "A symbol token is only ever produced in versions that enable it: with only Lua 5.1 active no source yields goto, ::, //, bitwise operators, compound assignments, ->, ?, @ and so on.",
  "every source, version set and token", "ranges over all sources",
  [f"{L}:Lexer::process_next",f"{S}:symbol!"])
p("Long brackets close at the first matching bracket",
  "The body of a long string or long comment of level n without error never contains the closing bracket of level n, and is closed by it, so the token ends at the first closing bracket of its level.",
  "every level, every body", "levels and bodies are unbounded",
  [f"{L}:Lexer::read_multi_line_body",f"{L}:Lexer::read_comment"])
p("Tokenizer errors point into the source",
  "Every tokenizer error carries a range whose start and end are positions of the source with start byte <= end byte, the start being the start of the offending token.",
  "every source, every error", "errors can occur at any of unboundedly many positions",
  [f"{L}:Lexer::process_next",f"{S}:TokenizerError"])
p("Number literals are well formed",
  "Every error-free decimal number token has at most one decimal point.",
  "every source, every number token", "number texts are unbounded",
  [f"{L}:Lexer::read_number"])
p("TokenReference::symbol accepts exactly symbol text surrounded by whitespace",
  "TokenReference::symbol_specific_lua_version(text, v) either fails, or returns a token reference that prints as text, whose token is a symbol enabled in v and whose trivia is only whitespace; and it succeeds on the text of every enabled symbol.",
  "every string, every version", "ranges over all strings",
  [f"{S}:TokenReference::symbol",f"{S}:TokenReference::symbol_specific_lua_version"])
p("Version sets form a join semilattice with the documented inclusions",
  "Combining versions with | is associative, commutative and idempotent, has_x of a union is the disjunction, with_x adds x and whatever x includes and removes nothing; has_lua54 implies has_lua53 implies has_lua52 and has_cfxlua implies has_lua54 for every version set obtainable through the API; nothing is reported for a feature that is not compiled in.",
  "every set of compiled features, every version built by any sequence of API calls", "2^6 feature sets times unbounded histories of combinators",
  [f"{V}:LuaVersion"])
p("Parsing is lossless",
  "If parse accepts a source then printing the returned Ast gives back the source exactly.",
  "every source, every feature and version set", "programs are unbounded; each grammar production and each error path may lose a token",
  [f"{PS}:AstResult::parse_fallible",f"{PA}:parse_block",f"{AM}:Display for Ast","full-moon/src/lib.rs:parse"])
p("Accepted sources keep every token exactly once",
  "If parse accepts a source, the tokens of the Ast in print order followed by the Eof token are exactly the token references produced by the tokenizer, in order, with their trivia and positions, with no phantom token added.",
  "every source, every version set", "as for losslessness, over unbounded programs",
  [f"{PS}:AstResult::parse_fallible",f"{PA}",f"{AM}"])
p("parse succeeds exactly when no error was recorded",
  "parse returns Ok exactly when parse_fallible reports no errors, and then returns the same Ast; otherwise it returns exactly the recorded errors. Any tokenizer error in the token stream of the source makes parse fail.",
  "every source, every version set", "error bookkeeping runs through dozens of recovery paths",
  [f"{PS}:AstResult::into_result",f"{PS}:AstResult::parse_fallible","full-moon/src/lib.rs:parse"])
p("Parsing never panics",
  "parse_fallible returns normally for every source.",
  "every source, feature and version set", "a panic needs a specific malformed token at a specific grammar position",
  [f"{PS}:ParserState::current",f"{PS}:ParserState::peek",f"{PA}",f"{PS}:AstResult::parse_fallible"])
p("Parsing terminates",
  "parse_fallible terminates on every source: each iteration of the statement loop and each recursive production consumes input.",
  "every source, every version set", "termination cannot be tested",
  [f"{PS}:AstResult::parse_fallible",f"{PA}"])
p("Operator precedence",
  "In every expression produced by the parser, the right operand of a binary operator never contains (outside brackets) an operator of lower precedence, nor one of equal precedence when the operator is left associative; the left operand never contains an operator of lower precedence, nor an equal right-associative one; the operand of a unary operator only contains binary operators of higher precedence than unary.",
  "every expression of every accepted source", "expression nesting is unbounded",
  [f"{PA}:parse_expression_with_precedence",f"{PA}:parse_unary_expression",f"{AM}:BinOp::precedence_of_token",f"{AM}:BinOp::is_right_associative_token"])
p("Binary operator table",
  "precedence never panics on a BinOp obtained from the parser, the precedence order is the one of the Lua manual (or < and < comparison < | < ~ < & < shift < .. < +- < */ // % < unary < ^), and exactly .. and ^ are right associative.",
  "every binary operator token, every feature set", "finite table times every token; parser-obtained operators over all inputs",
  [f"{AM}:make_bin_op",f"{AM}:BinOp::is_right_associative",f"{AM}:UnOp::precedence"])
p("Token iteration covers every token once",
  "Iterating tokens() of any syntax node yields every token of the node exactly once, i.e. a permutation of the tokens in print order.",
  "every node of every shape", "trees are unbounded", [f"{N}:Node","full-moon-derive/src/node.rs:StructTokensGenerator",f"{AM}:Display"])
p("Token iteration works from both ends",
  "For any interleaving of next and next_back on the iterator returned by tokens(), the items obtained from the front are a prefix and those from the back a reversed suffix of one fixed list; no token is returned twice or lost, and exhaustion is reported by both ends.",
  "every tree, every interleaving of calls", "call histories and trees are unbounded", [f"{N}:Tokens::next",f"{N}:Tokens::next_back"])
p("Node ranges cover the node's tokens",
  "range() of a node obtained by parsing starts at the start of its first token in print order and ends at the end of its last token in print order.",
  "every node of every parsed source", "trees are unbounded", [f"{N}:Node::range","full-moon-derive/src/node.rs:StructRangeGenerator","full-moon-derive/src/node.rs:EnumRangeGenerator"])
p("similar is an equivalence that ignores positions and trivia",
  "similar is reflexive, symmetric and transitive on nodes; it does not depend on positions or trivia of tokens, and similar nodes have the same shape and token types in the same order, apart from the separators of lists.",
  "every pair/triple of nodes", "trees are unbounded", [f"{N}:Node::similar","full-moon-derive/src/node.rs:StructSimilarGenerator"])
p("The default mutable visitor changes nothing",
  "Visiting an Ast with a VisitorMut that overrides nothing returns an identical Ast.",
  "every Ast", "trees are unbounded", [f"{VI}:VisitorMut",f"{AV}",f"{LV}","full-moon-derive/src/visit.rs"])
p("Visitors see every token in source order",
  "Visiting a node with a visitor calls the token hooks for every token of the node, in print order.",
  "every Ast", "trees are unbounded", [f"{VI}:Visitor",f"{AV}",f"{LV}",f"{S}:Visit for TokenReference"])
p("Token rewriting visitors act pointwise",
  "A VisitorMut that only overrides visit_token with a function f yields the same tree with f applied exactly once to every token and trivia of every node of the block; printing the result is printing f of the tokens.",
  "every Ast, every token function", "trees and functions are unbounded", [f"{S}:VisitMut for TokenReference",f"{AV}","full-moon-derive/src/visit.rs"])
p("update_positions restores exact positions",
  "After update_positions every token has the position obtained by tokenizing the printed text; on a freshly parsed Ast it changes nothing.",
  "every Ast", "trees and texts are unbounded", [f"{UP}:UpdatePositionsRewriter::update_token",f"{UP}:Ast::update_positions"])
p("Punctuated behaves like a list of values with separators",
  "Under any sequence of push, pop and push_punctuated a Punctuated is observationally a list: len, is_empty, first, last, iteration, into_iter and pairs agree with the list of values, pop undoes push, and every value except possibly the last has its punctuation when built through the parser or push_punctuated.",
  "every sequence of operations", "histories are unbounded", [f"{PU}:Punctuated",f"{PU}:Pair"])
p("push_punctuated panics exactly when documented",
  "push_punctuated panics exactly when the sequence is empty... or its last pair already has punctuation; otherwise it gives the previous last value the punctuation and appends the new value without punctuation.",
  "every Punctuated", "histories are unbounded", [f"{PU}:Punctuated::push_punctuated"])
p("Statement separators and last statement",
  "In every block produced for an accepted source, statements appear in source order, and a return/break (or Luau continue) ends its block: it is stored as last_stmt and nothing of the block follows it.",
  "every accepted source", "nesting is unbounded", [f"{PA}:parse_block",f"{PA}:parse_last_stmt",f"{AM}:Block"])
p("Syntax errors point to real tokens",
  "The token of every AST error reported by parse_fallible is a token of the source (its text and position are those of some token the tokenizer produced).",
  "every source", "error paths are many and nested without bound", [f"{PS}:ParserState::token_error",f"{PS}:ParserState::require",f"{AM}:AstError"])
p("Phantom tokens have a null position",
  "Tokens invented during error recovery have a null position, as documented by parse_fallible.",
  "every source with errors", "every recovery path", ["full-moon/src/lib.rs:parse_fallible",f"{S}:TokenReference::basic_symbol"])
p("Positions and tokens are ordered consistently with equality",
  "Comparing positions (and tokens) is a total preorder by byte offset; cmp is Equal exactly when the values are equal.",
  "every pair of positions", "infinitely many values", [f"{S}:Ord for Position",f"{S}:Ord for Token"])
p("surrounding_trivia is the outermost trivia",
  "surrounding_trivia of a node returns the leading trivia of its first token and the trailing trivia of its last token in print order.",
  "every node", "trees are unbounded", [f"{N}:Node::surrounding_trivia"])
p("Reparsing is stable",
  "If parse accepts a source losslessly, then parsing the printed text again accepts and yields an identical Ast.",
  "every accepted source", "programs are unbounded", ["full-moon/src/lib.rs:parse",f"{AM}:Display for Ast"])
p("Interpolated string sections nest",
  "With Luau active, the interpolated string tokens of an error-free source are well bracketed: middle and end sections only occur after a matching begin, and `{`/`}` inside an interpolation never close it early.",
  "every source", "nesting is unbounded", [f"{I}:read_interpolated_string_section",f"{L}:Lexer::process_next"])
p("Visitor hooks nest",
  "The hooks a visitor receives are well nested: every visit_x call for a node is followed by the matching visit_x_end call after all calls for the parts of the node, and none is left open at the end.",
  "every node of every shape", "trees are unbounded", ["full-moon/src/visitors.rs:Visitor","full-moon/src/ast/visitors.rs:Visit","full-moon-derive/src/visit.rs:derive"])
p("Accepted programs conform to the grammar",
  "If parse accepts a source, the returned tree is a derivation of the grammar of the active Lua versions: every node has the parts its production demands, with the keywords and symbols of that production, productions of versions that are not active do not occur, and separators stand exactly between the members of a list.",
  "every accepted source, every version", "programs are unbounded and every production can nest in every other", [f"{PA}:parse_block",f"{PA}:parse_stmt",f"{PA}:parse_expression",f"{AM}:Ast"])
p("Exactly the programs of the Lua grammar are accepted",
  "With the Lua versions other than Luau, parse accepts a source exactly if it has no tokenizer error and its tokens are those of a tree of the grammar of the active versions (followed by at most one superfluous last statement), and it returns that tree; the grammar assigns at most one tree to a token sequence.",
  "every source, every version other than Luau", "programs are unbounded: a test only shows that the programs tried are accepted, not that no program of the grammar is rejected", [f"{PA}:parse_block",f"{PA}:parse_stmt",f"{PA}:parse_expression",f"{PS}:AstResult::parse_fallible"])
p("Formatting does not matter",
  "If the tokens of two sources only differ in white space, comments and positions, parsing has the same outcome on both: the same tree and the same errors up to white space, comments and positions; in particular one is accepted exactly if the other one is, and the trees are similar.  The one exception is a space directly after the opening brace of an interpolation.",
  "every pair of sources, accepted or not, every version", "programs and their layouts are unbounded: a test compares a few layouts of a few programs", [f"{PA}:parse_block",f"{PS}:ParserState",f"{PS}:AstResult::parse_fallible"])
p("White space and comments can be exchanged",
  "Take a source without tokenizer errors and shebang line, and replace the white space and comments around its tokens by any other white space and comments (where two tokens touched, nothing may stay between them; otherwise what stands between two tokens starts with a blank; behind a section of an interpolated string there is something if and only if there was something on its line).  The new text has no tokenizer errors, it has the same tokens with the same texts, and parsing has the same outcome up to white space, comments and positions.",
  "every source, every choice of white space and comments, every version", "there are unboundedly many layouts of unboundedly many sources, and a reader that looks one character too far goes wrong in few of them", [f"{L}:Lexer::process_next",f"{L}:Lexer::process_next_with_trivia","full-moon/src/lib.rs:parse_fallible"])
p("Printed trees are read back",
  "A tree that conforms to the grammar (in Luau: one that is the one meant, in the sense of C50), built by hand or from parts of several programs, and printed with white space or comments between its tokens (two tokens may touch if the two alone can be told apart, or more generally if the lexical grammar finds the first one there), is accepted, and the result is that tree up to white space, comments and positions.",
  "every tree of the grammar, every layout, every version", "trees are unbounded and a generator builds trees no test has seen", ["full-moon/src/lib.rs:parse",f"{AM}:Display for Ast",f"{L}:Lexer::process_next",f"{PA}:parse_block"])
p("Accessors show what with_* methods set",
  "Each with_* method of a node type returns a node that the accessor of the same name (or the accessors documented for it) shows the given value for, while every other accessor shows what it showed before; the method replaces the printed text of that part and of nothing else, the last of two calls of the same method wins, calls of different methods can be exchanged, and two nodes for which all accessors agree are equal.",
  "every node type with with_* methods, every node of the type, every argument, every sequence of calls", "there are about 150 methods and 150 accessors, over trees of unbounded size; a swapped field shows only if the right pair is tried on the right node",
  ["full-moon/src/ast/mod.rs:For::with_block","full-moon/src/ast/mod.rs:FunctionBody::with_parameters","full-moon/src/ast/luau.rs:TypeDeclaration::with_type_name","full-moon/src/ast/luau.rs:IfExpression::with_condition"])
p("Nodes made by constructors can be read back",
  "The constructors of syntax nodes never panic; given parts that conform to the grammar and print with white space where it is needed, they make nodes that do so as well (after their blocks, lists and bodies were set with with_* methods), and a tree that does so is parsed, from its printed text, to itself up to white space, comments and positions.",
  "every constructor, every choice of readable parts, every feature set and every version", "the parts are trees of unbounded size, and whether two tokens run into each other depends on both of them",
  ["full-moon/src/ast/mod.rs:NumericFor::new","full-moon/src/ast/mod.rs:If::new","full-moon/src/ast/mod.rs:FunctionBody::new","full-moon/src/ast/lua52.rs:Goto::new","full-moon/src/ast/luau.rs:IfExpression::new","full-moon/src/tokenizer/structs.rs:TokenReference::basic_symbol"])
p("Luau programs are accepted, with the reading that is meant",
  "With every version including Luau, a source without tokenizer errors whose tokens are those of a tree of the grammar of the active versions is accepted, and the result is that tree.  Where the grammar of Luau gives a token sequence several trees (x :: T < y, A | B & C, f<<T>>(x), types of functions, packs) or a tree has a form the parser documents as unsupported, the tree has to be the reading that is meant, a condition on each node; of the trees for a token sequence at most one is. Conversely, the tree of every source that is accepted without skipping anything meets the condition.",
  "every source, every version, every tree of the grammar", "Luau programs are unbounded, its types nest in expressions and statements, and whether a construct ends before a token depends on all three; a test only shows that the programs tried are accepted", [f"{PA}:parse_block",f"{PA}:parse_stmt",f"{PA}:parse_expression",f"{PA}:parse_type",f"{PA}:expect_type_declaration",f"{PA}:expect_if_else_expression",f"{PS}:AstResult::parse_fallible"])
p("The tokens are those of the lexical grammar",
  "The tokenizer finds tokens in a source without reporting an error exactly if the lexical grammar of the active versions divides the source into tokens of these types and texts, white space and comments included: names and keywords that end with the last word character, the longest symbol of the versions, numbers of every form, strings and their escapes, long strings and comments up to the first closing bracket, and the parts of interpolated strings by the braces that are open.  The grammar divides a source in at most one way.",
  "every source, every version", "sources are unbounded, every token can follow every other, and where a token ends depends on what follows it", [f"{L}:Lexer::process_next",f"{L}:Lexer::process_next_with_trivia",f"{L}:Lexer::read_number",f"{L}:Lexer::read_string",f"{L}:Lexer::read_comment","full-moon/src/tokenizer/interpolated_strings.rs:read_interpolated_string_section"])
p("Each hook of a visitor is called once per node, and its result is used",
  "Visiting a tree calls the hook of a node type once for each node of that type in the tree, and mutable visitors receive the same calls on nodes, in the same order, as immutable ones.  What the visit_x_end hooks and visit_token of a mutable visitor return is what the resulting tree consists of: every token and trivia is replaced by its image, and every node, after its parts, by its image.  (The hooks on tokens differ for the commas between names and for type instantiations, annotations in excess of the names are not visited, and visit_contained_span is never called.)",
  "every tree, every node type, every visitor", "trees are unbounded, and a forgotten field of one of about 90 node types only shows on the trees that have it",
  ["full-moon/src/visitors.rs:create_visitor","full-moon/src/visitors.rs:Visit","full-moon/src/visitors.rs:VisitMut","full-moon/src/ast/visitors.rs:FunctionBody::visit","full-moon/src/ast/luau_visitors.rs:TypeInfo::visit","full-moon-derive/src/visit.rs:VisitGenerator"])
p("Errors say where they are",
  "The range of every error reported by parse or parse_fallible is a part of the source: it starts at a position of the source, ends at one, and starts no later than it ends.  A tokenizer error covers a nonempty part of the source; a syntax error covers whole tokens.  The text printed for an error tells the lines and characters of its range.",
  "every source, every version", "the ends of a range are taken from tokens of unbounded statements, some of which error recovery has added",
  ["full-moon/src/lib.rs:Error::range","full-moon/src/ast/mod.rs:AstError::range",f"{PS}:ParserState::token_error_ranged",f"{PA}:expect_block_with_end",f"{PS}:ParserState::require_with_reference_range"])
p("A source is accepted exactly if it is a program, character by character",
  "The sources without a #! line that are accepted (with no part skipped silently) are exactly those whose characters the lexical grammar divides into tokens which, with positions counted from the characters and trivia given to the token on its line, are the tokens of a tree of the grammar of the active versions - in Luau with the reading that is meant - and the end of the file; that tree, with these positions and this trivia, is the result.  A source has at most one such tree.",
  "every source, every version, every tree", "sources and trees are unbounded; a test only shows the reading of the sources tried, and a description of the language independent of the tokenizer and parser has nothing to run", [f"{PS}:AstResult::parse_fallible",f"{L}:Lexer::process_next_with_trivia",f"{L}:Lexer::collect_trailing_trivia",f"{L}:Lexer::process_next","full-moon/src/lib.rs:parse",f"{PA}:parse_block"])
p("Mutable visitors that replace nodes on the way down",
  "What a visit_x hook of a mutable visitor returns takes the place of the node: its parts are visited next, the node itself is not passed to the hook again, and visit_x_end is called with it once its parts are done.  So a visit by hooks pre (visit_x), h (visit_token) and g (visit_x_end) gives the tree in which nodes have been replaced by pre from the root downwards and then tokens by h and nodes by g from the tokens upwards; the resulting tree has the same type.  It ends whenever the parts of what replaces a node are smaller, by any measure, than the node was - in particular if no node is replaced by a larger one; it need not end otherwise.",
  "every tree, every visitor whose visit_x hooks replace nodes by a function, every state of the visitor", "trees and visitors are unbounded, and a visit that does not end is not seen by running it",
  ["full-moon/src/visitors.rs:VisitorMut","full-moon/src/visitors.rs:VisitMut","full-moon/src/visitors.rs:VisitorMut::visit_ast","full-moon-derive/src/visit.rs:VisitGenerator","full-moon/src/ast/visitors.rs:LocalAssignment::visit_mut","full-moon/src/ast/visitors.rs:FunctionBody::visit_mut"])
p("What serde stores can be read back",
  "With the serde feature (on by default), an Ast, a node, an error or a result of the tokenizer that is serialized to a self-describing format and deserialized from it, by the same build of the library, is what it was before: every token, trivia and position, and all parts of each node.",
  "every tree with every feature set, every token, every error", "there are about 90 node types with some 300 fields, several of which are left out under conditions, over trees of unbounded size; a field that is left out but required shows only on the trees that have it",
  ["full-moon/src/ast/mod.rs:Ast","full-moon/src/ast/mod.rs:LocalAssignment","full-moon/src/ast/mod.rs:GenericFor","full-moon/src/tokenizer/structs.rs:TokenType","full-moon/src/tokenizer/structs.rs:TokenReference","full-moon/src/util.rs:empty_optional_vector","full-moon/src/util.rs:vec_empty_or_all_none","full-moon/src/lib.rs:Error","full-moon/src/ast/mod.rs:AstError"])
p("What serde stores determines the printed source",
  "Two trees of the same node type that serialize to the same data have the same tokens, with the same trivia and positions, and print the same text; so nothing of the source is lost in storage, even where reading back fails.",
  "every two trees of every node type, every feature set", "pairs of trees of unbounded size; two different trees that are stored alike are not found by trying",
  ["full-moon/src/ast/mod.rs:Ast","full-moon/src/ast/mod.rs:LocalAssignment","full-moon/src/ast/punctuated.rs:Pair","full-moon/src/tokenizer/structs.rs:TokenType"])
p("Results say whether there were errors",
  "Each result of the tokenizer either has a value and no error or has at least one error: unwrap returns the value in the first case and panics in the second, unwrap_errors the other way round, and errors returns the errors there are.  collect, after any calls, has a value exactly if none of the remaining results has an error, and has all their errors otherwise.  parse returns the tree exactly if parse_fallible has no errors, and the errors otherwise.",
  "every source, every version, every sequence of calls", "sources and histories are unbounded, and an error that is not passed on is not seen by checking results that have a value",
  [f"{L}:LexerResult::unwrap",f"{L}:LexerResult::unwrap_errors",f"{L}:LexerResult::errors",f"{L}:Lexer::collect",f"{PS}:AstResult::errors",f"{PS}:AstResult::into_ast"])
p("Token accessors return the tokens they are named after",
  "In every tree that parse_fallible returns, also for a source with errors and also where a token was missing and the parser made one up, the token an accessor of a node returns is what the node's syntax has in that place: while_token() is a while keyword, the parentheses of a call are ( and ), the name of a local function is an identifier, a binary operator's token is that operator, the elements of a list are separated by the separators of that list.  (One exception, after an error for it: the punctuation of a function's return type may be ->.)",
  "every source, every version, every node of the tree", "sources are unbounded and so are the ways in which they can be wrong; each place where the parser gives up or invents tokens is reached by its own kinds of errors",
  [f"{PS}:AstResult::parse_fallible",f"{PA}:expect_while_loop",f"{PA}:expect_if",f"{PA}:expect_function_declaration",f"{PA}:parse_function_body",f"{PA}:expect_interpolated_string",f"{PS}:ParserState::require_with_reference_range"])
p("Later versions accept earlier programs",
  "A program that parse accepts under one combination of versions is accepted, with the identical tree (tokens, positions, trivia), when further versions other than Luau are added - from Lua 5.1 to 5.2, 5.3, 5.4, LuaJIT or CfxLua - provided no name in it becomes a keyword (goto) and no number is directly followed by a character with which it would go on (a point or p behind a hexadecimal number from 5.2 on, a LuaJIT suffix).  From 5.2 on, adding 5.3, 5.4 or CfxLua needs no proviso.  So adding a version never changes how a program that still parses in this sense is read: no two tokens are joined to a new operator, and no new construct takes over.",
  "every source without a #! line, every two combinations of versions of one build, the second with more than the first and without Luau", "sources are unbounded; a version test shows only that the sources tried are read alike, and new operators, long before they are used, could change the reading of characters that meet by chance",
  ["full-moon/src/ast/versions.rs:LuaVersion","full-moon/src/lib.rs:parse_fallible",f"{L}:Lexer::process_next",f"{L}:Lexer::read_number",f"{PA}:parse_stmt",f"{PA}:parse_expression_with_precedence","full-moon/src/tokenizer/structs.rs:Symbol"])
p("Luau accepts the programs of Lua 5.1",
  "A program that parse accepts as Lua 5.1 is accepted as Luau (alone or with other versions), provided no name becomes a keyword (goto, only if 5.2 or LuaJIT are added too), no number is directly followed by a character with which it would go on (_ , or b behind 0, and those of the other versions), and it has no string in backticks (a leniency of builds with CfxLua).  The tree is the same, with the same tokens, positions and trivia, except that FunctionBody::type_specifiers has an additional None for a ... parameter; it is identical if no function has one.  So names like type, export and continue are still read as names.",
  "every source without a #! line, every build with Luau, every combination of versions with Luau", "sources are unbounded; Luau has words that are keywords only in some places, types that start with <, {, ( or :, and compound operators, and each could take over part of a program of Lua 5.1",
  ["full-moon/src/ast/versions.rs:LuaVersion","full-moon/src/lib.rs:parse_fallible",f"{L}:Lexer::process_next",f"{L}:Lexer::read_number",f"{PA}:parse_stmt",f"{PA}:parse_last_stmt",f"{PA}:parse_function_body"])
p("Parts of programs are programs",
  "The text of any block of a program that parse accepts (the body of a function, of a loop, of a branch), as it stands in the source, is accepted by itself, and so is the text of any statement and any return, break or continue; the text of any expression is accepted behind return and a line break.  What is read is the part itself: the tree equals the one the whole program has there, up to positions, all tokens have the same leading and trailing trivia, and nothing is left behind it.",
  "every source without a #! line, every version, every block, statement and expression at any depth", "sources and trees are unbounded; how a part is read could depend on what stands around it (open braces of interpolated strings, the characters and the line behind it, the statement in front, the precedence of operators around it)",
  ["full-moon/src/lib.rs:parse_fallible",f"{L}:Lexer::process_next",f"{L}:Lexer::collect",f"{PA}:parse_block",f"{PA}:parse_stmt",f"{PA}:parse_expression",f"{PA}:expect_interpolated_string"])
p("Sections of interpolated strings",
  "In every program accepted as Luau, an interpolated string without expressions is one token; any other starts with a section that opens it and ends with one that closes it, and the sections between them stand between a } and a {, so there is one expression in each pair of braces and every string that is opened is closed.",
  "every source without a #! line, every version with Luau, every interpolated string at any depth", "sources are unbounded and interpolated strings nest to any depth; a string that is wrongly taken as part of another one is accepted silently",
  [f"{PA}:expect_interpolated_string","full-moon/src/ast/luau.rs:InterpolatedString","full-moon/src/ast/luau.rs:InterpolatedStringSegment","full-moon/src/tokenizer/interpolated_strings.rs:read_interpolated_string_section"])
p("A #! line makes no difference",
  "Put a #! line in front of a source that has no tokenizer errors and starts with a line break (or is empty).  The line becomes the first leading trivia of the first token, all other tokens and trivia stay as they are, and parsing does the same: the same tree up to positions and trivia, the same errors and messages, the same panics.  If the source was accepted, it still is, and the tree prints as the line followed by what it printed before.",
  "every #! line, every source without tokenizer errors, every version", "lines and sources are unbounded; the line is read by a path of its own in the tokenizer, before the first token is looked at",
  [f"{L}:Lexer::new",f"{L}:Lexer::new_lazy",f"{L}:Lexer::process_first_with_trivia","full-moon/src/lib.rs:parse_fallible"])
p("Programs can be put one behind the other",
  "If two programs are accepted, the first one ends with a line break and has no last statement (return, break, continue), and the second one does not start with ( nor, in Luau, with ::, then the first text followed by the second is accepted, as a block with the statements of the first and then those of the second.  All tokens keep their trivia; comments and blank lines at the end of the first file become leading trivia of the first token of the second one.",
  "every two sources without #! lines, every version", "both sources are unbounded; what the first one leaves behind in the tokenizer (open braces of interpolated strings, an unfinished line) or in the parser (an expression that could go on) could change how the second one is read",
  ["full-moon/src/lib.rs:parse_fallible",f"{L}:Lexer::process_next",f"{L}:Lexer::process_next_with_trivia",f"{L}:Lexer::collect_trailing_trivia",f"{PA}:parse_block",f"{PA}:parse_stmt",f"{PA}:parse_expression"])
p("Blocks of programs can be exchanged",
  "Take any block of an accepted program (the body of a function, of a loop, of a branch, or all of it) and put any block of another accepted program in its place, as a visitor does with with_block.  Every text with the tokens of the resulting tree, in order and with any white space and comments between them that keeps them apart, is accepted, and it is read as that tree; for instance, if no interpolated strings are in it, its tokens with one space behind each.  (It is different with expressions: x in x * y replaced by a + b is read as a + (b * y).)",
  "every two sources without #! lines, every version, every two blocks at any depth, also those inside expressions and types", "sources, depths and contexts are unbounded; how the code around a block is read could depend on what is in the block (whether a call or a type assertion goes on behind it, how operators around it bind)",
  ["full-moon/src/lib.rs:parse","full-moon/src/ast/mod.rs:Block","full-moon/src/ast/mod.rs:FunctionBody::with_block",f"{PA}:parse_block",f"{PA}:parse_stmt",f"{PA}:parse_expression",f"{PA}:parse_function_body"])
p("The text of a block can be exchanged",
  "Cut the text of any block out of an accepted program, with the white space and comments in it, and paste the text of any block of another accepted program in its place.  If a line ends in front of the block, the new text ends with a line break or is empty, and there are no interpolated strings in the two blocks, then the result is accepted.  It is read as the tree with the block exchanged, and every token has the leading and trailing trivia it had in the file it comes from.",
  "every two sources without #! lines, every version, every two blocks at any depth, also those inside expressions and types", "sources, depths and contexts are unbounded; the pasted text could change how the characters around it are divided into tokens and to which token white space and comments belong",
  ["full-moon/src/lib.rs:parse_fallible","full-moon/src/ast/mod.rs:Block",f"{L}:Lexer::process_next",f"{L}:Lexer::process_next_with_trivia",f"{L}:Lexer::collect_trailing_trivia",f"{PA}:parse_block"])
p("Errors about stray tokens",
  "Every syntax error of parse_fallible has a message that is not empty.  A token that cannot begin a statement is reported with a message of its own and skipped: such errors never stand directly behind each other in the list, so a run of such tokens is reported only once; they are about tokens of the source, in the order of the source and none of them twice, never about the end of the file; and their range is that of the token.",
  "every source, every version", "sources with errors are unbounded and the parser has some hundred places that record an error; whether a token is reported depends on all errors before it",
  ["full-moon/src/ast/parser_structs.rs:AstResult::parse_fallible","full-moon/src/ast/parser_structs.rs:ParserState::token_error","full-moon/src/ast/mod.rs:AstError"])
p("Statements in front of an error are kept",
  "Take a program that is accepted, ends with a line break and has no last statement, and put any text behind it that has no tokenizer errors and whose first token is a name, a keyword that begins a statement or ends a block, or the end of the file (or end the program with a semicolon).  Whatever syntax errors the text has, the tree that parse_fallible returns starts with exactly the statements of the program, in order, with their trivia and at their positions; statements can only be added behind them.  If the program has a last statement, the tree keeps it as its last statement (provided the text starts with a token that ends a block, with return or break, or with a name that is not the value of the return), and an error reports any statement behind it.",
  "every two sources without a #! line and without tokenizer errors, every version", "both texts are unbounded; error recovery could drop, change or reorder statements that were read before the error",
  ["full-moon/src/lib.rs:parse_fallible","full-moon/src/ast/parser_structs.rs:AstResult::parse_fallible",f"{PA}:parse_block",f"{PA}:parse_stmt","full-moon/src/ast/mod.rs:Block::merge_blocks"])
p("Names, numbers and strings do not matter to the parser",
  "If the tokens of two sources only differ in white space, comments, positions and in which names, numbers and strings they are (except for the names type, export, continue, read, write and typeof, which Luau gives a meaning), then parsing does the same on both, with or without errors: the trees have the same form, and there are as many errors, with the same messages and at the same tokens.  So one is accepted if and only if the other one is; if they are accepted and nothing is skipped, the n-th token of the one has the same place in its tree as the n-th token of the other; in particular names can be replaced by other names throughout an accepted program, and the new tree is the old one with the names replaced.",
  "every two such sources, every version", "sources are unbounded and so are names, numbers and strings; any of the parser's functions could treat a particular text differently",
  ["full-moon/src/lib.rs:parse_fallible","full-moon/src/ast/parser_structs.rs:AstResult::parse_fallible",f"{PA}:parse_stmt",f"{PA}:parse_primary_expression",f"{PA}:parse_simple_type"])
p("The first tokenizer error is where the source stops being made of tokens",
  "Read a source from its beginning, token by token, by the lexical grammar.  If this comes to the end, the tokenizer reports no error; if it comes to a place where something is left and no token of the grammar can be read, it does, and the first error it reports, and that parse_fallible reports, starts exactly at that place.  All results in front of the place are the tokens of the grammar.  Moreover every token that is returned without an error, anywhere in the source, also behind errors, is a token of the grammar at the place where it says it is.",
  "every source without a #! line, every version", "sources are unbounded; a place where nothing can be read is a statement about all tokens and all texts behind it",
  ["full-moon/src/tokenizer/lexer.rs:Lexer::process_next","full-moon/src/tokenizer/lexer.rs:Lexer::process_next_with_trivia","full-moon/src/tokenizer/structs.rs:TokenizerError","full-moon/src/lib.rs:parse_fallible"])
p("Every visitor hook belongs to one type of node",
  "The hooks a visitor's methods implement are told apart by their names: two types of nodes never call the same hook, the hook called before the parts of a node is never one called after those of another, the traits have the hooks that the types of nodes call, and declare them for nodes of exactly this type.  For types a user of the derive macro adds, hooks are equal only if the names of the types are, and the first hook of one is the last of another only if its name is the other's followed by End.",
  "every pair of type names; every type of node", "the names are made from type names by a macro; there are infinitely many names, and a collision would only show as calls of the wrong hook",
  ["full-moon-derive/src/visit.rs:snake_case", "full-moon-derive/src/visit.rs:VisitGenerator", "full-moon/src/visitors.rs:create_visitor"])
open("/verif/properties.jsonl","w").write("\n".join(json.dumps(x) for x in P)+"\n")
print(len(P))
