{
 "claims": [
  {
   "property": "C01",
   "status": "proved",
   "theorems": [
    "FM.Props.tokenize_lossless",
    "FM.Props.shebangKept_of_no_shebang",
    "FM.Props.tokenize_not_lossless_after_shebang"
   ],
   "note": "Side condition: a `#!` line was kept; the witness theorem shows the code loses text otherwise."
  },
  {
   "property": "C02",
   "status": "proved",
   "theorems": [
    "FM.Props.ok_token_is_slice",
    "FM.Props.every_token_is_slice",
    "FM.Props.step_prints_consumed"
   ],
   "note": ""
  },
  {
   "property": "C03",
   "status": "proved",
   "theorems": [
    "FM.Props.token_positions",
    "FM.Props.token_start_positions"
   ],
   "note": ""
  },
  {
   "property": "C04",
   "status": "proved",
   "theorems": [
    "FM.Props.tokens_tile"
   ],
   "note": ""
  },
  {
   "property": "C05",
   "status": "proved",
   "theorems": [
    "FM.Props.eof_once_last",
    "FM.Props.no_eof_after_shebang"
   ],
   "note": ""
  },
  {
   "property": "C06",
   "status": "proved",
   "theorems": [
    "FM.Props.tokenize_terminates",
    "FM.Props.tokenize_length",
    "FM.Props.step_consumes"
   ],
   "note": ""
  },
  {
   "property": "C07",
   "status": "partial",
   "theorems": [
    "FM.Props.tokenize_no_panic_partial",
    "FM.Props.tokenize_panics_on_backtick",
    "FM.Props.step_panics_iff"
   ],
   "note": "The code panics on a backtick when Luau is inactive and CfxLua is not compiled; everything else is proved panic free."
  },
  {
   "property": "C08",
   "status": "proved",
   "theorems": [
    "FM.Props.streaming_is_cursor"
   ],
   "note": ""
  },
  {
   "property": "C09",
   "status": "proved",
   "theorems": [
    "FM.Props.trivia_attachment",
    "FM.Props.trivia_divided"
   ],
   "note": ""
  },
  {
   "property": "C10",
   "status": "proved",
   "theorems": [
    "FM.Props.words_are_keywords_or_identifiers",
    "FM.Props.word_token"
   ],
   "note": ""
  },
  {
   "property": "C11",
   "status": "proved",
   "theorems": [
    "FM.Props.symbol_round_trip",
    "FM.Props.symbol_text_injective",
    "FM.Props.fromStr_iff",
    "FM.Props.fromStr_none_iff"
   ],
   "note": ""
  },
  {
   "property": "C12",
   "status": "proved",
   "theorems": [
    "FM.Props.symbols_enabled",
    "FM.Props.lua51_symbols"
   ],
   "note": ""
  },
  {
   "property": "C13",
   "status": "proved",
   "theorems": [
    "FM.Props.long_bracket_closes_first"
   ],
   "note": ""
  },
  {
   "property": "C14",
   "status": "proved",
   "theorems": [
    "FM.Props.errors_point_into_source",
    "FM.Props.failed_results_have_errors"
   ],
   "note": ""
  },
  {
   "property": "C15",
   "status": "partial",
   "theorems": [
    "FM.Props.number_points_partial",
    "FM.Props.number_two_points",
    "FM.Props.number_grammar"
   ],
   "note": "The code accepts `.5.5` as one number; proved for numbers that do not start with a point. number_grammar is the exact form of all numbers."
  },
  {
   "property": "C16",
   "status": "proved",
   "theorems": [
    "FM.Props.symbol_specific_sound",
    "FM.Props.symbol_specific_complete"
   ],
   "note": ""
  },
  {
   "property": "C17",
   "status": "proved",
   "theorems": [
    "FM.Props.version_or_assoc",
    "FM.Props.version_or_comm",
    "FM.Props.version_or_self",
    "FM.Props.version_or_lua51",
    "FM.Props.version_has_or",
    "FM.Props.version_only_has",
    "FM.Props.version_with_has",
    "FM.Props.version_has_compiled",
    "FM.Props.version_includes",
    "FM.Props.version_default_has"
   ],
   "note": ""
  },
  {
   "property": "C18",
   "status": "partial",
   "theorems": [
    "FM.Props.accepted_lossless_partial",
    "FM.Props.parse_lossless_partial",
    "FM.Props.parse_lossless_count_partial",
    "FM.Props.shebang_lost",
    "FM.Props.last_statement_dropped",
    "FM.Props.luau_skips_tokens",
    "FM.Props.kept_lossless"
   ],
   "note": "False as stated: a second top-level last statement is dropped, an erroneous first token after `#!` is lost, and Luau skips tokens of unfinished types. Proved for all other accepted sources: without Luau the printed Ast is the source up to one dropped last statement; in every version it is the source if every token of the source is in the Ast."
  },
  {
   "property": "C19",
   "status": "partial",
   "theorems": [
    "FM.Props.accepted_tokens_partial",
    "FM.Props.parse_tokens_partial",
    "FM.Props.parse_tokens_exact_partial",
    "FM.Props.last_statement_dropped",
    "FM.Props.luau_skips_tokens",
    "FM.Props.kept_tokens",
    "FM.Props.kept_or_lost",
    "FM.Props.accepted_unfinished"
   ],
   "note": "False as stated (witnesses). Proved: without Luau (or when Luau skipped nothing) the tokens are those of the tree, at most one dropped last statement, and Eof; in every version an accepted Ast lacks a token of the source or has exactly its tokens in order."
  },
  {
   "property": "C20",
   "status": "proved",
   "theorems": [
    "FM.Props.parse_ok_iff",
    "FM.Props.parse_error_iff",
    "FM.Props.tokenizer_errors_reported",
    "FM.Props.parse_ok_no_tokenizer_error"
   ],
   "note": ""
  },
  {
   "property": "C21",
   "status": "partial",
   "theorems": [
    "FM.Props.parse_no_panic_partial",
    "FM.Props.parse_no_panic_lua_partial",
    "FM.Props.parse_no_panic_stream_partial",
    "FM.Props.parse_panics_shebang",
    "FM.Props.parse_panics_luau",
    "FM.Props.parse_panics_operator"
   ],
   "note": "False of the code (witnesses). Proved: without Luau, no source without a `#!` line and backticks panics; with Luau, none whose tokens have no fatal error does, if the operators of Lua 5.3 are active or not compiled in."
  },
  {
   "property": "C22",
   "status": "proved",
   "theorems": [
    "FM.Props.parse_terminates"
   ],
   "note": ""
  },
  {
   "property": "C23",
   "status": "partial",
   "theorems": [
    "FM.Props.accepted_precedence_partial",
    "FM.Props.parse_precedence_partial",
    "FM.Props.precedence_fails_with_errors",
    "FM.Props.kept_precedence",
    "FM.Props.accepted_precedence_fails"
   ],
   "note": "Proved for accepted sources (with Luau: nothing skipped, or every token kept). False for sources with syntax errors and for accepted Luau sources of which tokens are lost (witnesses)."
  },
  {
   "property": "C24",
   "status": "proved",
   "theorems": [
    "FM.Props.binop_accept_iff",
    "FM.Props.binop_precedence",
    "FM.Props.binop_order",
    "FM.Props.binop_associativity",
    "FM.Props.precedence_of_token_iff",
    "FM.Props.binop_precedence_panics",
    "FM.Props.precedence_of_inactive_operator"
   ],
   "note": "The last two theorems are witnesses: precedence panics on a hand-made BinOp, and precedence_of_token ignores the active version."
  },
  {
   "property": "C25",
   "status": "proved",
   "theorems": [
    "FM.Props.tokens_permutation",
    "FM.Props.tokens_permutation_needs_fit",
    "FM.Props.parsed_tokens",
    "FM.Props.kept_iteration",
    "FM.Props.all_tokens"
   ],
   "note": "Side condition: not more annotations than names, which every tree of the parser satisfies, also those of sources with errors (all_tokens); the witness shows it is needed."
  },
  {
   "property": "C26",
   "status": "proved",
   "theorems": [
    "FM.Props.tokens_double_ended",
    "FM.Props.tokens_collect",
    "FM.Props.twoEnded_middle"
   ],
   "note": ""
  },
  {
   "property": "C27",
   "status": "partial",
   "theorems": [
    "FM.Props.parsed_range_start_partial",
    "FM.Props.parsed_range_partial",
    "FM.Props.range_start_partial",
    "FM.Props.range_partial",
    "FM.Props.range_index",
    "FM.Props.range_local"
   ],
   "note": "False of the code (two witnesses). For every node of an accepted source the start is right, and so is the end for nodes that close: whose last printed part is, at every level, the last declared one, or whose range is declared to be that of their brackets."
  },
  {
   "property": "C28",
   "status": "proved",
   "theorems": [
    "FM.Props.similar_iff_shape",
    "FM.Props.similar_refl",
    "FM.Props.similar_symm",
    "FM.Props.similar_trans",
    "FM.Props.similar_mapTok",
    "FM.Props.similar_ignores_separators"
   ],
   "note": ""
  },
  {
   "property": "C29",
   "status": "partial",
   "theorems": [
    "FM.Props.default_visitor_partial",
    "FM.Props.default_visitor_printed_partial",
    "FM.Props.default_visitor_changes",
    "FM.Props.parsed_default_visitor_partial",
    "FM.Props.parsed_default_visitor_printed",
    "FM.Props.parsed_annotations_missing",
    "FM.Props.parsed_default_visitor_changes",
    "FM.Props.kept_default_visitor_partial",
    "FM.Props.all_default_visitor_partial"
   ],
   "note": "False of the code (witness) when a list of names lacks its list of types while Luau is compiled in; printed tokens never change, in any tree the parser returns."
  },
  {
   "property": "C30",
   "status": "partial",
   "theorems": [
    "FM.Props.visitor_shows_partial",
    "FM.Props.visitor_sees_tokens_partial",
    "FM.Props.visitor_skips_comma",
    "FM.Props.visitor_type_instantiation"
   ],
   "note": "False of the code (two witnesses); visitor_shows_partial says for every tree exactly which tokens are visited, in which order."
  },
  {
   "property": "C31",
   "status": "proved",
   "theorems": [
    "FM.Props.token_visitor_pointwise",
    "FM.Props.token_visitor_printed",
    "FM.Props.visitor_in_order",
    "FM.Props.token_visitor_in_order",
    "FM.Props.parsed_token_visitor",
    "FM.Props.kept_token_visitor",
    "FM.Props.all_token_visitor"
   ],
   "note": "The structural equality assumes one annotation per name; the statement about printed tokens does not."
  },
  {
   "property": "C32",
   "status": "partial",
   "theorems": [
    "FM.Props.update_positions_partial",
    "FM.Props.update_positions_unchanged_partial",
    "FM.Props.update_positions_misses_eof",
    "FM.Props.parsed_positions",
    "FM.Props.parsed_update_positions",
    "FM.Props.kept_update_positions",
    "FM.Props.all_update_positions_partial"
   ],
   "note": "The Eof token and its trivia are not updated by the code (witness); proved for all other tokens, in any tree the parser returns."
  },
  {
   "property": "C33",
   "status": "proved",
   "theorems": [
    "FM.Props.punctuated_history",
    "FM.Props.punctuated_observers",
    "FM.Props.pop_push",
    "FM.Props.forEachMut_contents",
    "FM.Props.pair_observers",
    "FM.Props.push_punctuated_punctual",
    "FM.Props.punctuated_display",
    "FM.Props.contents_injective",
    "FM.Props.punctuated_pairs",
    "FM.Props.extend_pushes"
   ],
   "note": ""
  },
  {
   "property": "C34",
   "status": "proved",
   "theorems": [
    "FM.Props.push_punctuated_spec"
   ],
   "note": ""
  },
  {
   "property": "C35",
   "status": "partial",
   "theorems": [
    "FM.Props.accepted_blocks_partial",
    "FM.Props.parse_blocks_partial",
    "FM.Props.two_last_statements",
    "FM.Props.kept_blocks",
    "FM.Props.all_blocks_partial",
    "FM.Props.statements_moved"
   ],
   "note": "Every block of every tree the parser returns has that form, also with errors; in source order by C19 if no token is lost. The code accepts and drops a second last statement of the file, and in Luau moves a statement that follows `return` in front of it (witnesses)."
  },
  {
   "property": "C36",
   "status": "partial",
   "theorems": [
    "FM.Props.error_tokens_partial",
    "FM.Props.error_token_invented"
   ],
   "note": "False of the code (witness): an error may point to a token invented by error recovery; proved that it points to a token of the source or to one of the tokens error recovery invents."
  },
  {
   "property": "C37",
   "status": "partial",
   "theorems": [
    "FM.Props.ast_tokens_partial",
    "FM.Props.phantom_position",
    "FM.Props.documented_phantom"
   ],
   "note": "False of the code (witness); proved that every token of an Ast is a token of the source or one of the nineteen invented ones, with their positions."
  },
  {
   "property": "C38",
   "status": "partial",
   "theorems": [
    "FM.Props.position_cmp_swap",
    "FM.Props.position_cmp_trans",
    "FM.Props.position_cmp_eq",
    "FM.Props.position_cmp_not_consistent",
    "FM.Props.token_cmp_not_consistent",
    "FM.Props.position_cmp_consistent_partial",
    "FM.Props.position_cmp_prefix",
    "FM.Props.tokens_strictly_ordered",
    "FM.Props.references_strictly_ordered"
   ],
   "note": "The preorder laws hold; `cmp = Equal iff equal` is false of the code (two witnesses) and is proved for positions of one text."
  },
  {
   "property": "C39",
   "status": "partial",
   "theorems": [
    "FM.Props.surrounding_trivia_leading_partial",
    "FM.Props.surrounding_trivia_partial",
    "FM.Props.surrounding_trivia_single",
    "FM.Props.surrounding_trivia_brackets"
   ],
   "note": "False of the code (two witnesses). The leading trivia is right for every node; the trailing trivia for nodes of at least two tokens whose last declared parts are the last printed ones."
  },
  {
   "property": "C40",
   "status": "partial",
   "theorems": [
    "FM.Props.reparse_partial",
    "FM.Props.reparse_of_lossless",
    "FM.Props.kept_reparse"
   ],
   "note": "Corollary of C18, with its side conditions."
  },
  {
   "property": "C41",
   "status": "proved",
   "theorems": [
    "FM.Props.sections_nest",
    "FM.Props.brace_closes_brace"
   ],
   "note": "Proved for every source, with or without tokenizer errors."
  },
  {
   "property": "C42",
   "status": "proved",
   "theorems": [
    "FM.Props.visitor_nests",
    "FM.Props.visitor_nests_ast"
   ],
   "note": ""
  },
  {
   "property": "C43",
   "status": "partial",
   "theorems": [
    "FM.Props.accepted_grammar_partial",
    "FM.Props.parse_grammar",
    "FM.Props.accepted_chosen",
    "FM.Props.kept_grammar",
    "FM.Props.all_available_partial",
    "FM.Props.accepted_grammar_fails"
   ],
   "note": "Proved without Luau, and with Luau if the parser skipped nothing or the Ast has every token; false of other accepted Luau sources (witness). No tree of the parser has a node of an inactive version."
  },
  {
   "property": "C45",
   "status": "proved",
   "theorems": [
    "FM.Props.formatting_irrelevant",
    "FM.Props.accepted_reformatted",
    "FM.Props.double_brace_depends_on_space"
   ],
   "note": ""
  },
  {
   "property": "C44",
   "status": "proved",
   "theorems": [
    "FM.Props.accepted_iff",
    "FM.Props.grammar_accepted",
    "FM.Props.grammar_accepted_dropping",
    "FM.Props.grammar_unambiguous"
   ],
   "note": ""
  },
  {
   "property": "C46",
   "status": "proved",
   "theorems": [
    "FM.Props.respaced_tokens",
    "FM.Props.respaced_parse",
    "FM.Props.respaced_accepted",
    "FM.Props.touching_tokens_can_merge",
    "FM.Props.interpolation_depends_on_space"
   ],
   "note": ""
  },
  {
   "property": "C47",
   "status": "proved",
   "theorems": [
    "FM.Props.written_tree_parses",
    "FM.Props.printed_tree_parses",
    "FM.Props.spaced_tree_parses",
    "FM.Props.read_token_alone"
   ],
   "note": "For Luau the trees must be those that are read (Chosen, see C50). written_tree_parses covers all tokens, interpolated strings included; the second form, where each pair of neighbours is judged on its own, leaves interpolated strings out."
  },
  {
   "property": "C48",
   "status": "proved",
   "theorems": [
    "FM.Props.with_then_get",
    "FM.Props.with_visible",
    "FM.Props.with_typed",
    "FM.Props.with_with",
    "FM.Props.with_comm",
    "FM.Props.with_prints",
    "FM.Props.accessors_show_all",
    "FM.Props.ast_with",
    "FM.Props.interpolated_expressions",
    "FM.Props.interpolated_form",
    "FM.Props.block_display",
    "FM.Props.spaces_print",
    "FM.Props.withToken_display"
   ],
   "note": "The printed text is stated except for brackets and for lists of names with their annotations, which are printed in several pieces."
  },
  {
   "property": "C49",
   "status": "partial",
   "theorems": [
    "FM.Props.readable_parses",
    "FM.Props.numericFor_new",
    "FM.Props.genericFor_new",
    "FM.Props.doBlock_new",
    "FM.Props.repeatBlock_new",
    "FM.Props.elseIf_new",
    "FM.Props.whileBlock_new_partial",
    "FM.Props.ifBlock_new_partial",
    "FM.Props.ret_new",
    "FM.Props.tableCtor_new",
    "FM.Props.assignment_new",
    "FM.Props.localAssignment_new",
    "FM.Props.emptyArgs_new",
    "FM.Props.functionCall_new",
    "FM.Props.methodCall_new",
    "FM.Props.funcBody_new",
    "FM.Props.anonFunc_new",
    "FM.Props.localFunction_new",
    "FM.Props.functionName_new",
    "FM.Props.functionDecl_new",
    "FM.Props.label_new",
    "FM.Props.attribute_new",
    "FM.Props.gotoStmt_new_partial",
    "FM.Props.block_new",
    "FM.Props.luau_types_new",
    "FM.Props.luau_exprs_new",
    "FM.Props.typeField_new",
    "FM.Props.typeAssertion_new",
    "FM.Props.typeDecl_new",
    "FM.Props.typeSpec_new",
    "FM.Props.typeFunction_new",
    "FM.Props.typeParam_new",
    "FM.Props.genericDecl_new_partial",
    "FM.Props.typeInst_new_partial",
    "FM.Props.elseIfExpr_new",
    "FM.Props.ifExpr_new_partial",
    "FM.Props.luauAttr_new",
    "FM.Props.typeInst_glued",
    "FM.Props.goto_glued",
    "FM.Props.if_glued",
    "FM.Props.while_glued",
    "FM.Props.elseif_glued",
    "FM.Props.ifExpr_glued",
    "FM.Props.attribute_glued",
    "FM.Props.compoundAssignment_new",
    "FM.Props.varExpr_new",
    "FM.Props.typeUnion_new",
    "FM.Props.typeIntersection_new",
    "FM.Props.interpString_new"
   ],
   "note": "False of seven constructors (witnesses goto_glued etc.: they leave out white space); proved for the others, and for `if`, `while`, `goto` and conditional expressions with white space around the part, for type instantiations without Lua 5.3. Parts that come directly behind a token without white space must not start with a comment. In Luau the parts must be those that are read where the text has several readings (Readable.chosen); trees with interpolated strings are not covered. luau_types_new and luau_exprs_new are the conformance without these conditions."
  },
  {
   "property": "C50",
   "status": "proved",
   "theorems": [
    "FM.Props.chosen_accepted",
    "FM.Props.chosen_accepted_dropping",
    "FM.Props.chosen_iff",
    "FM.Props.chosen_unambiguous",
    "FM.Props.kept_iff",
    "FM.Props.rejected_or_lost"
   ],
   "note": "The condition on the nodes is Spec/Luau.lean. chosen_iff is the equivalence: the sources accepted with nothing skipped are exactly those of the grammar with this reading."
  },
  {
   "property": "C51",
   "status": "proved",
   "theorems": [
    "FM.Props.lexical_grammar",
    "FM.Props.lexical_grammar_unambiguous",
    "FM.Props.accepted_lexes"
   ],
   "note": "The grammar is Spec/Lexical.lean; it describes the tokens by their characters. Of a source with a #! line the theorem is about the results that keep the line (an error in the first token behind it is lost, see C02)."
  },
  {
   "property": "C52",
   "status": "partial",
   "theorems": [
    "FM.Props.visitors_agree_on_nodes",
    "FM.Props.visitors_agree_partial",
    "FM.Props.visitors_disagree",
    "FM.Props.recorder_changes_nothing",
    "FM.Props.visitor_once_per_node",
    "FM.Props.mut_visitor_once_per_node",
    "FM.Props.visitor_skips_excess",
    "FM.Props.contained_span_never_visited",
    "FM.Props.rewriter_rewrites",
    "FM.Props.all_hooks"
   ],
   "note": "The hooks on nodes are called as claimed if there are no annotations in excess of the names (witness visitor_skips_excess), which is so of all trees of the parser (all_hooks); the hooks on tokens differ between mutable and immutable visitors (witness visitors_disagree). For visit_x hooks that change the node see C55."
  },
  {
   "property": "C53",
   "status": "partial",
   "theorems": [
    "FM.Props.error_ranges_partial",
    "FM.Props.error_starts_partial",
    "FM.Props.error_ends_partial",
    "FM.Props.error_default_range",
    "FM.Props.error_range_inverted",
    "FM.Props.printed_tokenizer_error",
    "FM.Props.printed_syntax_error",
    "FM.Props.printed_kinds",
    "FM.Props.printed_place",
    "FM.Props.printed_syntax_place",
    "FM.Props.printed_message"
   ],
   "note": "Not so of the code: the range of a block that is not closed may end at a token invented by error recovery, before it starts (witness error_range_inverted). Proved: the range goes from the start of one token to the end of another, of the source or invented; what is printed tells the range (for syntax errors if the message is known)."
  },
  {
   "property": "C54",
   "status": "proved",
   "theorems": [
    "FM.Props.tokenizes_iff",
    "FM.Props.source_accepted",
    "FM.Props.source_accepted_iff",
    "FM.Props.source_unambiguous"
   ],
   "note": "The right-hand sides mention only Spec/Lexical.lean, Spec/Source.lean (positions and trivia), the grammar and Spec/Luau.lean. A superfluous last statement that the parser drops (C35) is allowed for."
  },
  {
   "property": "C55",
   "status": "proved",
   "theorems": [
    "FM.Props.visit_ends_once",
    "FM.Props.file_visit_ends",
    "FM.Props.changing_nothing_ends",
    "FM.Props.replaced_then_visited",
    "FM.Props.replacer_rewrites",
    "FM.Props.replaced_typed",
    "FM.Props.replacing_ends",
    "FM.Props.replacing_smaller_ends",
    "FM.Props.replacing_may_not_end"
   ],
   "note": "The visit runs with fuel in the model, VisitEnds says that it ends with some fuel and visit_ends_once that the fuel does not matter. visit_x hooks replace nodes by a function of the node and change the state by a function of the hook; visit_token and visit_x_end hooks are arbitrary in replaced_then_visited. replacing_may_not_end: a visitor that puts parentheses around every expression never ends."
  },
  {
   "property": "C56",
   "status": "partial",
   "theorems": [
    "FM.Props.saved_node_partial",
    "FM.Props.saved_ast_partial",
    "FM.Props.parsed_saved_partial",
    "FM.Props.saved_error_partial",
    "FM.Props.saved_lexRes_partial",
    "FM.Props.parsed_not_restored",
    "FM.Props.error_not_restored",
    "FM.Props.all_saved_partial"
   ],
   "note": "Not so of the code (witnesses parsed_not_restored, error_not_restored): ordinary strings, and with Luau or Lua 5.4 local assignments without annotations, are stored without a field that reading requires. Proved: the exact condition for reading back, and that reading never gives anything else."
  },
  {
   "property": "C57",
   "status": "proved",
   "theorems": [
    "FM.Props.same_saved_node",
    "FM.Props.same_saved_ast",
    "FM.Props.same_saved_parsed",
    "FM.Props.same_saved_different",
    "FM.Props.kept_same_saved",
    "FM.Props.all_same_saved"
   ],
   "note": "The trees themselves may differ in lists of annotations that are all None (witness same_saved_different). Trees only use fields that exist with the compiled features."
  },
  {
   "property": "C58",
   "status": "partial",
   "theorems": [
    "FM.Props.result_says",
    "FM.Props.collected_says",
    "FM.Props.errors_complete_partial",
    "FM.Props.errors_lost",
    "FM.Props.ast_result_says"
   ],
   "note": "False of the code in one point (witness errors_lost): LexerResult::errors returns nothing for a fatal result although it has errors. Everything else is proved."
  },
  {
   "property": "C59",
   "status": "proved",
   "theorems": [
    "FM.Props.all_tokens_named",
    "FM.Props.while_tokens",
    "FM.Props.operator_token"
   ],
   "note": "For all trees, with or without errors; Spec/Slots.lean compares the tokens in every field with the grammar of Spec/Grammar.lean. arrow_kept is the one exception, which the statement names."
  },
  {
   "property": "C60",
   "status": "proved",
   "theorems": [
    "FM.Props.later_version",
    "FM.Props.from_lua52_on"
   ],
   "note": "The provisos are needed: witnesses goto_becomes_keyword, hex_point_goes_on, suffix_goes_on. Luau is excluded because its trees have additional lists of types and it reads some programs of Lua 5.1 differently."
  },
  {
   "property": "C61",
   "status": "proved",
   "theorems": [
    "FM.Props.luau_accepts_lua51",
    "FM.Props.luau_same_tree"
   ],
   "note": "The provisos are needed: witnesses underscore_goes_on, binary_goes_on, backticks_interpolate (and those of C60 for combinations of versions). luauTree, a small function in Spec/FromLua51.lean, states the difference of the trees."
  },
  {
   "property": "C62",
   "status": "proved",
   "theorems": [
    "FM.Props.blocks_are_programs",
    "FM.Props.statements_are_programs",
    "FM.Props.last_statements_are_programs",
    "FM.Props.expressions_can_be_returned"
   ],
   "note": "Within, ofStmt, ofLast, ofExpr and ReadAs are in Spec/Within.lean; holds in all versions."
  },
  {
   "property": "C63",
   "status": "partial",
   "theorems": [
    "FM.Props.interpolated_sections_partial",
    "FM.Props.unfinished_string_accepted",
    "FM.Props.string_between_expressions"
   ],
   "note": "False of the code: expect_interpolated_string takes any backtick token behind an expression as the next section, so `a{x`b{y}` (two strings opened, one closed) and `a{x`b`y}c` (two expressions in one pair of braces) are accepted. Proved: the first section opens, the last one closes, none between closes."
  },
  {
   "property": "C64",
   "status": "proved",
   "theorems": [
    "FM.Props.shebang_tokens",
    "FM.Props.shebang_irrelevant",
    "FM.Props.shebang_accepted",
    "FM.Props.shebang_hides_error"
   ],
   "note": "shebang_hides_error: the restriction to sources without tokenizer errors is needed. Extends C62, C54 and others, which are about sources without a #! line, to sources with one."
  },
  {
   "property": "C65",
   "status": "proved",
   "theorems": [
    "FM.Props.programs_append",
    "FM.Props.tokens_append",
    "FM.Props.paren_continues",
    "FM.Props.label_continues",
    "FM.Props.no_line_break"
   ],
   "note": "The conditions on (, :: and the line break are needed: the last three theorems. That nothing of the second source is dropped as a superfluous last statement (C18) is the hypothesis Tokenizes."
  },
  {
   "property": "C66",
   "status": "proved",
   "theorems": [
    "FM.Props.blocks_can_be_exchanged",
    "FM.Props.exchanged_blocks_parse",
    "FM.Props.exchanged_conforms",
    "FM.Props.expressions_cannot_be_exchanged"
   ],
   "note": "The last theorem shows that the same is not true of expressions."
  },
  {
   "property": "C67",
   "status": "proved",
   "theorems": [
    "FM.Props.block_text_exchanged",
    "FM.Props.tokens_spliced",
    "FM.Props.line_before_needed",
    "FM.Props.line_behind_needed",
    "FM.Props.open_string_behind"
   ],
   "note": "The last three theorems show that the conditions are needed (the last one because of C63). That nothing of the first source is dropped as a superfluous last statement (C18) is the hypothesis Tokenizes."
  },
  {
   "property": "C68",
   "status": "proved",
   "theorems": [
    "FM.Props.errors_explained",
    "FM.Props.stray_once",
    "FM.Props.stray_in_order",
    "FM.Props.stray_not_end",
    "FM.Props.stray_unreported"
   ],
   "note": "stray_unreported: the converse does not hold, a skipped token far behind the reported one is not reported although there are statements between them (DESIGN.md section 4)."
  },
  {
   "property": "C69",
   "status": "proved",
   "theorems": [
    "FM.Props.statements_kept",
    "FM.Props.program_kept",
    "FM.Props.text_kept",
    "FM.Props.last_kept",
    "FM.Props.text_last_kept",
    "FM.Props.statement_changed",
    "FM.Props.value_lost",
    "FM.Props.return_changed"
   ],
   "note": "statements_kept is about any list of statements of the grammar with the exact tokens, program_kept about the tokens up to trivia, text_kept about texts; last_kept and text_last_kept are about programs with a last statement. The last three theorems show that the condition on the first token behind the program is needed."
  },
  {
   "property": "C70",
   "status": "proved",
   "theorems": [
    "FM.Props.names_irrelevant",
    "FM.Props.accepted_alike",
    "FM.Props.tokens_same_places",
    "FM.Props.accepted_renamed",
    "FM.Props.exchanged_words",
    "FM.Props.renamed_text",
    "FM.Props.special_names_matter"
   ],
   "note": "names_irrelevant covers sources with errors, tokenizer errors included (these stay equal up to their ranges). special_names_matter shows for each of the six names that it cannot be left out of the exception. A section of an interpolated string keeps whether something follows it, as in C45."
  },
  {
   "property": "C71",
   "status": "proved",
   "theorems": [
    "FM.Props.first_error",
    "FM.Props.first_error_exists",
    "FM.Props.first_error_unique",
    "FM.Props.tokens_or_stuck",
    "FM.Props.first_error_parsed",
    "FM.Props.ok_token_lexeme",
    "FM.Props.number_grammar",
    "FM.Props.first_error_position"
   ],
   "note": "Sources with a #! line are excluded: there the first error can be lost (shebang_hides_error, C64)."
  },
  {
   "property": "C72",
   "status": "proved",
   "theorems": [
    "FM.Props.hook_name_made",
    "FM.Props.hooks_of_types_differ",
    "FM.Props.hooks_first_last",
    "FM.Props.hook_declared",
    "FM.Props.hooks_not_both",
    "FM.Props.hooks_not_named"
   ],
   "note": "The table of declared hooks is that of all features together. hooks_not_named: visit_anonymous_call and visit_contained_span are declared and not named after a node type; they are never called (C52)."
  }
 ]
}