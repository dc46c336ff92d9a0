# Formal model of full-moon in Lean 4 — design

The object of study is `/repo` (`full-moon`, `full-moon-derive`), read as text.
The model is a Lean 4 program; the properties of `properties.jsonl` are theorems about
that program.  Everything lives in `lean/Verif/`.

## 1. Architecture

| Module group | Models | Source in /repo |
|---|---|---|
| `Model/Config` | compiled cargo features, `LuaVersion`, `version_switch!`/`has_version!` | `full-moon/Cargo.toml`, `ast/versions.rs` |
| `Model/Symbol` | `symbol!` table, `from_str`, `Display` | `tokenizer/structs.rs` 15–179 |
| `Model/Token` | `Position`, `TokenType`, `Token`, `TokenReference`, `Display`, `Ord`, `is_trivia` | `tokenizer/structs.rs` |
| `Model/Lexer` | `LexerSource`, `Lexer` (all of `process_next`, trivia handling, streaming API, `collect`), interpolated strings | `tokenizer/lexer.rs`, `tokenizer/interpolated_strings.rs` |
| `Model/Punctuated` | `Pair`, `Punctuated` API | `ast/punctuated.rs` |
| `Model/Ast` | every AST struct/enum as a schema (constructor ↦ field types), `Display` order, `Node` (tokens, similar, positions), visitors | `ast/mod.rs`, `ast/luau.rs`, `ast/lua52.rs`, `ast/span.rs`, `node.rs`, `visitors.rs`, `full-moon-derive/src/*` |
| `Model/Parser` | `ParserState`, every function of `parsers.rs`, `parse_fallible`, `AstResult` | `ast/parsers.rs`, `ast/parser_structs.rs`, `ast/mod.rs`, `lib.rs` |
| `Model/Ast/Visit`, `Model/Ast/VisitChanging`, `Model/Ast/Naming` | visitors, `update_positions` (in `Visit`), the names of hooks | `visitors.rs`, `ast/visitors.rs`, `ast/luau_visitors.rs`, `ast/update_positions.rs`, `full-moon-derive/src/visit.rs` |
| `Model/Errors`, `Model/Api`, `Model/SavedErrors` | errors and their `Display`, accessors of results, saved errors | `lib.rs`, `tokenizer/structs.rs`, `ast/mod.rs`, `ast/parser_structs.rs` |
| `Spec/*` | independent specifications (positions of a text, flat token lists, list cursor, precedence of a tree, …) | none: written from the English property |
| `Proofs/*` | helper lemmas | – |
| `Props/*` | the property theorems, one file per group, with non-vacuity `example`s beside them | – |

Modelling conventions

* A Rust `char` is a Lean `Char` (both are Unicode scalar values); a `&str`/`ShortString` is a `List Char`;
  `len_utf8` is `Char.utf8Size`.
* `usize` is `Nat` (no overflow is modelled: a source of 2^64 bytes cannot be held in memory).
* `&mut self` becomes a state argument and a returned state. A panic (`unwrap` on `None`, `unreachable!`,
  `assert!`, `panic!`) is the explicit result `Outcome.panic`; running out of model fuel is the explicit
  result `Outcome.diverge`, so termination is a theorem and not a modelling assumption.
* `LexerSource { source, lexer_position.index }` is represented by the list of characters not yet read
  (`source[index..]`); a reset of `lexer_position` is a reset of that list and of the position.
* Compiled cargo features and the run-time `LuaVersion` are both parameters of every theorem:
  no theorem fixes a feature set.
* Memory, stack depth (recursion depth of the Rust parser), performance and `Debug` output are not modelled.
* `serde` is modelled as data in a self-describing format (Model/Ast/Saved.lean): the fields, their names, features and
  `skip_serializing_if` are a table generated from /repo (Model/Ast/Shapes.lean, tools/gen_serde.py); what the derives make
  of it is their documented behaviour, since their code is not in /repo.  Symbols and variants are read regardless of features.

## 2. Property by property

| Id | Modelled | Proof method |
|---|---|---|
| C01 | lexer, `Display` of tokens | each reader returns a token whose text is the consumed prefix; induction over the token list. Sources starting with `#!` excluded: there the code loses text (witness theorem) |
| C02 | `process_next` from an arbitrary lexer state | same per-token lemma, for `LexerResult::Ok` results |
| C03 | `Position` bookkeeping in `LexerSource::next` and the hand-computed whitespace ends | specification `posAfter : List Char → Position` by counting; invariant "state position = posAfter of the consumed prefix" |
| C04 | same | corollary of the per-token lemma |
| C05 | `sent_eof` protocol | induction over the stream |
| C06 | all lexer loops | every `process_next` that is not Eof consumes; fuel sufficiency theorem |
| C07 | panic points of the lexer (`unreachable!` for an unsupported quote) | negation by witness (backtick without `cfxlua` compiled and without Luau) and a partial theorem excluding exactly that case |
| C08 | `Lexer::new/current/peek/consume/collect` | refinement to a cursor on a list |
| C09 | `process_next_with_trivia`, `collect_trailing_trivia` | induction |
| C10 | identifier branch, `Symbol::from_str` | direct |
| C11 | symbol table | finite table, `decide` over the table, lifted |
| C12 | all symbol producing branches | per-branch lemma |
| C13 | `read_multi_line_body` | induction over the body |
| C14 | error ranges | per-branch lemma with the position invariant |
| C15 | `read_number` | negation by witness (`.5.5`); partial theorem for numbers that do not start with a point |
| C16 | `symbol_specific_lua_version` | induction over the whitespace loops |
| C17 | `LuaVersion` | bit-vector case analysis over the reachable versions |
| C18, C19 | the whole parser | Hoare-style specification per parser function: *a function that records no error returns a tree whose printed tokens are exactly the tokens it consumed*. Negations by witness for the silent losses found (section 4); partial theorem for what holds. In every version: if every token of an accepted source is in the Ast (`Spec/Kept.lean`), the Ast has exactly the tokens of the source in order (`Props/Kept.lean`); by a second program logic that counts tokens (`Proofs/Parser/Count*.lean`): the tokens of a tree and the times the parser gave up are at most the tokens consumed |
| C20 | `parse`, `parse_fallible` | error list only grows; every token result is inspected |
| C21 | panic points of the parser | negation by witness; partial theorem |
| C22 | recursion and loops of the parser | fuel sufficiency theorem |
| C23 | `parse_expression_with_precedence`, `parse_unary_expression` | invariant carried through the parser specification |
| C24 | `make_bin_op!` | finite table |
| C25, C26 | `Node::tokens`, `Tokens::next/next_back` | generic induction over trees; per-constructor table |
| C27, C39 | `Node::range`, `surrounding_trivia` | negation by witness; partial theorem for constructors whose field order is the print order |
| C28 | `Node::similar` | generic induction |
| C29–C31 | `Visit`, `VisitMut` derive and hand-written impls | generic induction; negation by witness for C30 |
| C32 | `UpdatePositionsRewriter` | induction over tokens in visit order; negation by witness for the Eof token |
| C33, C34 | `Punctuated` | induction over operation sequences, refinement to lists |
| C35 | `parse_block`, `parse_fallible` main loop | parser specification; negation by witness (`return 1 return 2`) |
| C36 | `ParserState::token_error` etc. | parser specification: error tokens come from the stream |
| C37 | `basic_symbol` | negation by witness |
| C42 | `Visit` derive and hand-written impls | induction over trees: the calls of every part leave the open nodes as they are |
| C38 | `Ord` impls | preorder proved; consistency with `Eq` refuted by witness; partial theorem on positions of one text |
| C40 | `parse` | corollary of C18 |
| C43 | the whole parser | `Spec/Grammar.lean` states the grammar (`Conforms`) apart from the parser; every parser function is proved to return conforming nodes when it records no error and skips nothing (`Proofs/Parser/Clean*.lean`); in Luau also nodes of the reading that is meant (`Spec/Luau.lean`) |
| C25, C29, C31, C32, C35, C43, C52, C56, C57 for all trees | the whole parser | the typing logic (`Proofs/Parser/Logic.lean`, `WellTy`) proves for every tree the parser returns, with or without errors, that each node exists in the active versions and that lists of annotations fit the names; `Props/Recovered.lean` draws the conclusions |
| C44 | the whole parser, without Luau | the other direction of C43: per parser function, *on the tokens of a conforming node followed by a token that cannot continue it, the function consumes exactly these tokens and returns that node* (`Proofs/Parser/Forward*.lean`); a view lemma per production turns conforming nodes into the arguments of the constructors the parser uses |
| C45 | the whole parser, all versions | a relational proof: two runs of every parser function on token lists that are equal up to trivia and positions have equal results up to trivia and positions (`Proofs/Parser/Format*.lean`) |
| C46 | the tokenizer, all versions, interpolated strings included | locality: what the lexical grammar (C51) finds only depends on the token's text and on the first character behind it (for `[`: on whether a long bracket opens; for a section of an interpolated string: on whether the text ends or goes on with `}`); tokens and fillers written down are divided into these tokens and trivia, and the trivia is attached as C54 says (`Proofs/Layout.lean`); then C45 |
| C47 | the tokenizer and the parser | the lemmas of C46 for tokens written down, interpolated strings included, then completeness of the parser (C44, C50) and C45; a second form for neighbours that may touch, without interpolated strings |
| C48 | the accessors and `with_*` methods of all node types, as two tables of rows (type, name, field) generated by `tools/gen_builders.py` and cited per row | the table facts by `decide +kernel` over the whole tables, lifted to all nodes by lemmas on lists and on `fold` |
| C49 | the `new` functions of the node types | the made tokens are read off for all feature sets; a tree of readable parts under a constructor is readable, then C47; negations by witness |
| C50 | the whole parser, every version | the lemmas of C44 for all productions of Luau: types with the tokens that can follow them (`Proofs/Parser/ForwardTypes*.lean`), assertions, instantiations, contextual keywords; the reading that is meant is a condition on each node (`Spec/Luau.lean`), which can be computed (`Proofs/Parser/Decide.lean`) and holds for all programs among the tests of the repository; with C43 this gives an equivalence (`chosen_iff`) |
| C51 | the whole tokenizer, every version | an inductive lexical grammar over the characters (`Spec/Lexical.lean`): lexemes with the text behind them and the open braces; each reader of the model is shown to find a lexeme iff the grammar has it there (`Proofs/LexicalNumber`, `LexicalText`, `LexicalTokens`, `LexicalSymbol`), then one step (`LexicalStep`), then the stream with its trivia lists and its `#!` line (`LexicalChain`) |
| C41 | `brace_stack`, interpolated sections | stack invariant over the token stream |
| C52 | `create_visitor!`, `Visit`, `VisitMut`, their derive and hand-written impls | a visitor that writes down its calls: induction over trees relates its log to the tree walked in print order, whose calls are counted; a visitor given by functions: induction gives the tree rewritten bottom up |
| C53 | `Error::range`, `AstError::range`, every call of `token_error_ranged` and `require_with_reference_range` | the specification of every parser function (weakest preconditions) says that the ends of recorded ranges are at known tokens; composed with C02, C14, C20; witness of an inverted range; `Display` of errors is shown to be injective in lines and characters by cutting the numbers off its end |
| C54 | `parse_fallible`, `process_next_with_trivia`, `collect_trailing_trivia` | trailing trivia is the rest of the line, by induction on `collect_trailing_trivia`; positions by C03; composed with C51 and C50 |
| C55 | `VisitMut`, `VisitorMut` with `visit_x` hooks that replace nodes | the visit with fuel simulates the visit of the replaced tree: rebuilding a node keeps relations of programs (`Linked.rebuild`, one case per layout), induction on the levels of `ExpandsIn`; termination by a measure |
| C56 | `Serialize` and `Deserialize` of the Ast, all node types, tokens, errors and lexer results | `load_save`: induction on the tree, `loadFields` reads each field `saveFields` wrote since names are distinct (checked on the whole table); exact condition for failure |
| C57 | the same | `save_inj`: stored data determines the tree up to lists of annotations that are all `None`; `flat_trim`: such lists print nothing |
| C58 | `LexerResult` and `AstResult` accessors (Model/Api) | cases on the results of C08's list, with `failed_results_have_errors`; witness for fatal results |
| C59 | the whole parser | the typing logic also records, for every token that goes into a node, that it is what the production of the node (`Spec/Grammar.lean`) has there; invented tokens are looked up in a table of the texts that the parser makes (`madeTexts`) |
| C60 | the whole parser, through C54 | the grammar and the lexical grammar of C54 in both versions: `Later.conforms` (every construct stays available), `Later.lexes` (every token stays one: strings, numbers, keywords), and `Before.ok`, a finite check of all productions that behind an operator or a colon no token stands with which it could be joined to a symbol of a later version |
| C61 | the whole parser, through C54 | `luauTree` (the missing types of `...`) takes a tree of the grammar of Lua 5.1 to one of Luau with the reading that is meant (`AddsLuau.grown`, induction over trees: no node has an annotation or assertion, and printed order does not change), and the tokens stay tokens (`AddsLuau.lexes`, with `Before.ok` of C60 for symbols) |
| C62 | the whole parser, through C54 | the tokens of a part are consecutive tokens of the program (`flat_infix`); how they are read depends on what stands around them only through the character behind each and the open braces, and the braces open in front of a part stay open in it (`above_tree`, induction over the grammar), so the text of the part has the same tokens (`tokens_alone`); completeness of the parser (C44, C50) on them |
| C63 | interpolated strings in accepted trees | the grammar of C44 gives what is true; two accepted sources show what is not |
| C64 | the tokenizer's first step; the parser through C45 | the lexical grammar (C51) with the line in front, `Attaches` (C54) for the trivia of the first token, then C45: parsing does not depend on trivia |
| C65 | the whole parser, through C54 | a token in a text that ends with a line break stays one whatever follows (`lexeme_more`); the second text has the same tokens above any open braces (`lexes_behind`, from `above_tree` of C62); trivia is attached as stated (`attaches_append`, induction); the joined block is one of the grammar with the reading that is meant, and completeness of the parser (C44, C50) |
| C66 | the whole parser, through C54 | the conditions of the grammar on a node do not depend on what is in the blocks below it: they have the same value for the tree with all blocks emptied (`connected_hollow`, `chosen_hollow`); then induction over the way to the block (`Exchanged.conforms`, `Exchanged.chosen`) and C47 |
| C67 | the whole parser, through C54 | the printed tokens of the tree with the exchanged block are those of the old tree with those of the block exchanged (`Exchanged.splice`, induction over the way to the block, one case for each layout); the text in front, the new one and the one behind are made of the same tokens as before (`lexes_spliced`, from C62 and C65), with the same trivia (`attaches_spliced`); then C66 and completeness of the parser |
| C68 | the whole parser and the loop of `parse_fallible` | one lemma for each of the 150 parser functions (Proofs/Parser/Says, by a tactic that steps through the function): its messages are neither empty nor the one for stray tokens, and what it leaves is the end of what it was given; then an invariant of the loop about the errors so far and the tokens read so far |
| C69 | tokenizer, parser and the loop of `parse_fallible` | the parser lemmas of C35/C50 say what each function does on the tokens of a tree with any token behind it that cannot go on with it; so the loop of `parse_block` has the statements in its list when it gets to the text behind; the rest of the parser only adds to that list; for texts, the tokenizer finds the same first tokens (C41) |
| C70 | the whole parser, all versions | the relational proof of C45 with a coarser relation: two runs of every parser function on token lists that are equal up to trivia, positions and the text of names, numbers and strings (`Proofs/Parser/Alike*.lean`); the conditions on tokens and the two messages that quote a token are shown to depend only on what is kept; the place of each token follows from the form of the trees and from C19 (two trees of the same form come from one tree whose tokens are pairs, `Proofs/Relabel.lean`) |
| C71 | the tokenizer: `process_next`, `process_next_with_trivia`, all readers | the step theorem of C51 (a step finds a token iff the grammar has one there) also says that a step that reports an error is where nothing can be read; the first error of a result comes from its first such step (a comment that is not closed is followed by the end of the file only); induction over the results (`Proofs/FirstError.lean`) |
| C72 | `snake_case` and the hook names of the derive macro, `create_visitor!`'s table, the names of the node types | induction over names: the first letter that differs is seen in the result, since underscores only come from capitals; the tables by `decide +kernel` over all node types |

## 3. Trusted base

* Lean 4.33.0 kernel; axioms at most `propext`, `Classical.choice`, `Quot.sound` (recorded per theorem in
  `AXIOMS.md`, made by `tools/axioms.py`).
* The reading of the Rust code: every definition cites the lines it models.  `COVERAGE.md` (made by `tools/coverage.py`)
  lists for each file the functions whose lines are cited, and names those that are not.
* As a test of that reading (not a proof), the model is run on all 280 sources under `/repo/full-moon/tests` and compared
  with the recorded snapshots of the Rust code: `tools/conformance_tree.py` compares the stored form of every tree, token
  list and list of errors as a whole (field names, order, kinds of nodes, texts, positions, trivia, messages, ranges) and
  `tools/conformance.py` the printed trees, before and after `update_positions`.  There is no disagreement.
* The semantics of the Rust standard library items used (`Vec`, `Option`, `String`, iterators, `char::len_utf8`,
  `char::is_ascii_digit`, `char::is_ascii_whitespace`) is represented by the obvious list operations.

## 4. Disagreements between the code and the English properties

Found while reading; each is turned into a theorem with a concrete witness.

* C01/C07: a `#!` first line followed by a first token that is not error-free is dropped together with that
  token and its errors (`lexer.rs` 203–210), so an erroneous file can be accepted and lose text; when only
  Eof remained the stream is empty and the parser panics.
* C07: a backtick without Luau active panics unless the `cfxlua` feature is compiled (`lexer.rs` 1210).
* C15: `.5.5` is one number token.
* C18/C19/C35: `return 1 return 2` is accepted and the second statement is dropped.
* C18/C19 (Luau): several productions return "not found" after consuming a token, e.g. `type X =`,
  `f(x ::)`, `f(if)`.  `while x:: do end` is accepted as `do end`, and `repeat until x::` as a `do` block both of whose
  keywords are made up.  `local function f(...:` is accepted as `local function f(...)end`.
* C23/C43 (Luau): `x = - a ^ b ^ c :: ^ d` is accepted as `(- a) ^ d`, a tree that violates precedence and grammar.
* C35/C19 (Luau): `while x:: do end return 1 y = 2` is accepted as `do end y = 2 return 1`: the recovered block of the loop has
  no last statement, so the main loop goes on and the statements behind `return` are put in front of it.
* C21 (Luau): `state.current().unwrap()`-style accesses panic on fatal tokens (`@$`, `local x: a.$`, …).
* C27/C39: `range`, `surrounding_trivia` exclude the closing bracket of several nodes.
* C30: the immutable visitor skips the commas of parameters, `local` names and `for` names; in `<<T>>` it visits the inner
  `<` twice and the inner `>` never. `visitor_shows_partial` states for every tree what is visited (`Spec/Visited.lean`).
* C52: `visit_contained_span` and `visit_anonymous_call` are never called; the immutable visitor never calls
  `visit_token_reference`; annotations in excess of the names are not visited.
* C53: the range of the error for a missing `end` is that of the last statement of the block, whose last token may be
  invented: for `do local x = {` it starts at byte 3 and ends at byte 1.
* C32: the Eof token is not updated.
* C21 (Luau with the `lua53` feature compiled in but Lua 5.3 inactive): `x = a & b` panics.
* C36: an error may point to an invented token (`x = {{; do}`).
* C37: the documented example `if x == 2 code()` produces no phantom `then`; the `if` is dropped.
* C37: tokens made with `basic_symbol` have the position of a freshly lexed text, not a null position.
* C38: `Ord` compares only the byte offset while `Eq` compares everything.
* C43: `(a) = 1` is accepted; an unfinished `if a then elseif b` yields an `If` whose condition is `b`.
* C43/C44: some constructs depend on the compiled features, not on the active version: `local a in b`, `{ .a }` and `?.`
  with `cfxlua`, unary `~` with `lua53`, `@` attributes before function expressions with `luau`.
* C44: programs of Lua 5.2 and later with `break` before the end of a block, or with empty statements, are rejected.
* C45: the only place where white space matters to the parser is a space after the opening brace of an interpolation.
* C46: behind a section of an interpolated string, white space in front of `}` can change how the text is read (`` {`\u{`} ``): a respacing may have white space behind a section only if the original has.
* C49: with Lua 5.3 in addition to Luau `TypeInstantiation::new` prints shifts (`<<`, `>>`), which `parse` does not accept there.
* C49: `Goto::new`, `IfExpression::new`, `If::new`, `ElseIf::new`, `While::new` and `LuauAttribute::new` make tokens
  without the white space the printed text needs.  `LocalAssignment::new`, `GenericFor::new` and `FunctionBody::new` leave
  the lists of annotations empty, where a parsed tree has a `None` per name.
* C48: `MethodCall::with_type_instanation` and `ElseIfExpression::with_block` do not have the name of the accessor.
* C56: `multi_line_depth` of a string is left out if it is 0 and has no default, so no Ast with a string in quotes or in
  `[[ ]]` can be read back; with Luau (or Lua 5.4) the same holds of the type specifiers (attributes) of `local` assignments
  and of generic `for` loops without annotations.
* C58: `LexerResult::errors` is documented to return the errors "if there was any" but returns an empty list for fatal
  results (`lexer.rs` 1540–1545); `unwrap_errors` returns them.
* C59: after the error "function return type annotations should use `:` instead of `->`" the `->` is kept as the punctuation
  of the type specifier (`parsers.rs` 2355–2367), where `:` is expected.
* C60: not every program of Lua 5.1 is accepted later: `goto` becomes a keyword (as in Lua), and `0x1..y` and `x = 1i = 2`
  become malformed numbers from 5.2 on and in LuaJIT.  These are provisos of the statement, with witnesses.
* C61: not every program of Lua 5.1 is one of Luau: `x = 1_ = 2` and `x = 0b1 = 2` become malformed numbers, and a string in
  backticks, which builds with the `cfxlua` feature read under every version but Luau (`lexer.rs`), becomes an interpolated
  string.  `FunctionBody::type_specifiers` lists a `None` for `...` only if Luau is active.
* C63: `expect_interpolated_string` (`parsers.rs` 2505–2530) takes any token of an interpolated string behind an expression as
  the next section: `` x = `a{x`b{y}` `` (two strings opened, one closed) and `` x = `a{x`b`y}c` `` (two expressions in one
  pair of braces) are accepted; Luau rejects both.  The brace stack of the tokenizer then keeps an open brace for the rest of
  the file.
* C68: `parse_fallible` (`parser_structs.rs` 317–336) does not report a token that begins no statement if the last error was
  about such a token, wherever that was: the second `)` of `) x = 1 ) y = 2` is skipped without an error of its own although
  a statement was read in between (`stray_unreported`).  After the first such token, a user sees no other one until an error
  of a different kind occurs.
* C69: what is behind a program can make its last statement lose a part, not only gain one: `local x = f` followed by `:: )`
  in Luau is read as `local x =` without a value (`value_lost`).
