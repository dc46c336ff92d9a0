"""Writes /verif/MANIFEST.json.  Run after changing the table below."""
import json
T = "FM.Props."
C = []
def claim(prop, status, theorems, note=""):
    C.append(dict(property=prop, status=status, theorems=[T + t for t in theorems], note=note))

claim("C01", "proved", ["tokenize_lossless", "shebangKept_of_no_shebang", "tokenize_not_lossless_after_shebang"],
      "Side condition: a `#!` line was kept; the witness theorem shows the code loses text otherwise.")
claim("C02", "proved", ["ok_token_is_slice", "every_token_is_slice", "step_prints_consumed"])
claim("C03", "proved", ["token_positions", "token_start_positions"])
claim("C04", "proved", ["tokens_tile"])
claim("C05", "proved", ["eof_once_last", "no_eof_after_shebang"])
claim("C06", "proved", ["tokenize_terminates", "tokenize_length", "step_consumes"])
claim("C07", "partial", ["tokenize_no_panic_partial", "tokenize_panics_on_backtick", "step_panics_iff"],
      "The code panics on a backtick when Luau is inactive and CfxLua is not compiled; everything else is proved panic free.")
claim("C08", "proved", ["streaming_is_cursor"])
claim("C09", "proved", ["trivia_attachment", "trivia_divided"])
claim("C10", "proved", ["words_are_keywords_or_identifiers", "word_token"])
claim("C11", "proved", ["symbol_round_trip", "symbol_text_injective", "fromStr_iff", "fromStr_none_iff"])
claim("C12", "proved", ["symbols_enabled", "lua51_symbols"])
claim("C13", "proved", ["long_bracket_closes_first"])
claim("C14", "proved", ["errors_point_into_source", "failed_results_have_errors"])
claim("C15", "partial", ["number_points_partial", "number_two_points", "number_grammar"],
      "The code accepts `.5.5` as one number; proved for numbers that do not start with a point. number_grammar is the exact form of all numbers.")
claim("C16", "proved", ["symbol_specific_sound", "symbol_specific_complete"])
claim("C17", "proved", ["version_or_assoc", "version_or_comm", "version_or_self", "version_or_lua51", "version_has_or",
      "version_only_has", "version_with_has", "version_has_compiled", "version_includes", "version_default_has"])
claim("C18", "partial", ["accepted_lossless_partial", "parse_lossless_partial", "parse_lossless_count_partial", "shebang_lost",
      "last_statement_dropped", "luau_skips_tokens", "kept_lossless"],
      "False as stated: a second top-level last statement is dropped, an erroneous first token after `#!` is lost, and Luau skips tokens of unfinished types. Proved for all other accepted sources: without Luau the printed Ast is the source up to one dropped last statement; in every version it is the source if every token of the source is in the Ast.")
claim("C19", "partial", ["accepted_tokens_partial", "parse_tokens_partial", "parse_tokens_exact_partial", "last_statement_dropped",
      "luau_skips_tokens", "kept_tokens", "kept_or_lost", "accepted_unfinished"],
      "False as stated (witnesses). Proved: without Luau (or when Luau skipped nothing) the tokens are those of the tree, at most one dropped last statement, and Eof; in every version an accepted Ast lacks a token of the source or has exactly its tokens in order.")
claim("C20", "proved", ["parse_ok_iff", "parse_error_iff", "tokenizer_errors_reported", "parse_ok_no_tokenizer_error"])
claim("C21", "partial", ["parse_no_panic_partial", "parse_no_panic_lua_partial", "parse_no_panic_stream_partial",
      "parse_panics_shebang", "parse_panics_luau", "parse_panics_operator"],
      "False of the code (witnesses). Proved: without Luau, no source without a `#!` line and backticks panics; with Luau, none whose tokens have no fatal error does, if the operators of Lua 5.3 are active or not compiled in.")
claim("C22", "proved", ["parse_terminates"])
claim("C23", "partial", ["accepted_precedence_partial", "parse_precedence_partial", "precedence_fails_with_errors", "kept_precedence", "accepted_precedence_fails"],
      "Proved for accepted sources (with Luau: nothing skipped, or every token kept). False for sources with syntax errors and for accepted Luau sources of which tokens are lost (witnesses).")
claim("C24", "proved", ["binop_accept_iff", "binop_precedence", "binop_order", "binop_associativity", "precedence_of_token_iff",
      "binop_precedence_panics", "precedence_of_inactive_operator"],
      "The last two theorems are witnesses: precedence panics on a hand-made BinOp, and precedence_of_token ignores the active version.")
claim("C25", "proved", ["tokens_permutation", "tokens_permutation_needs_fit", "parsed_tokens", "kept_iteration", "all_tokens"],
      "Side condition: not more annotations than names, which every tree of the parser satisfies, also those of sources with errors (all_tokens); the witness shows it is needed.")
claim("C26", "proved", ["tokens_double_ended", "tokens_collect", "twoEnded_middle"])
claim("C27", "partial", ["parsed_range_start_partial", "parsed_range_partial", "range_start_partial", "range_partial", "range_index", "range_local"],
      "False of the code (two witnesses). For every node of an accepted source the start is right, and so is the end for nodes that close: whose last printed part is, at every level, the last declared one, or whose range is declared to be that of their brackets.")
claim("C28", "proved", ["similar_iff_shape", "similar_refl", "similar_symm", "similar_trans", "similar_mapTok", "similar_ignores_separators"])
claim("C29", "partial", ["default_visitor_partial", "default_visitor_printed_partial", "default_visitor_changes", "parsed_default_visitor_partial", "parsed_default_visitor_printed", "parsed_annotations_missing", "parsed_default_visitor_changes", "kept_default_visitor_partial", "all_default_visitor_partial"],
      "False of the code (witness) when a list of names lacks its list of types while Luau is compiled in; printed tokens never change, in any tree the parser returns.")
claim("C30", "partial", ["visitor_shows_partial", "visitor_sees_tokens_partial", "visitor_skips_comma", "visitor_type_instantiation"],
      "False of the code (two witnesses); visitor_shows_partial says for every tree exactly which tokens are visited, in which order.")
claim("C31", "proved", ["token_visitor_pointwise", "token_visitor_printed", "visitor_in_order", "token_visitor_in_order", "parsed_token_visitor", "kept_token_visitor", "all_token_visitor"],
      "The structural equality assumes one annotation per name; the statement about printed tokens does not.")
claim("C32", "partial", ["update_positions_partial", "update_positions_unchanged_partial", "update_positions_misses_eof", "parsed_positions", "parsed_update_positions", "kept_update_positions", "all_update_positions_partial"],
      "The Eof token and its trivia are not updated by the code (witness); proved for all other tokens, in any tree the parser returns.")
claim("C33", "proved", ["punctuated_history", "punctuated_observers", "pop_push", "forEachMut_contents", "pair_observers",
      "push_punctuated_punctual", "punctuated_display", "contents_injective", "punctuated_pairs", "extend_pushes"])
claim("C34", "proved", ["push_punctuated_spec"])
claim("C35", "partial", ["accepted_blocks_partial", "parse_blocks_partial", "two_last_statements", "kept_blocks", "all_blocks_partial", "statements_moved"],
      "Every block of every tree the parser returns has that form, also with errors; in source order by C19 if no token is lost. The code accepts and drops a second last statement of the file, and in Luau moves a statement that follows `return` in front of it (witnesses).")
claim("C36", "partial", ["error_tokens_partial", "error_token_invented"],
      "False of the code (witness): an error may point to a token invented by error recovery; proved that it points to a token of the source or to one of the tokens error recovery invents.")
claim("C37", "partial", ["ast_tokens_partial", "phantom_position", "documented_phantom"],
      "False of the code (witness); proved that every token of an Ast is a token of the source or one of the nineteen invented ones, with their positions.")
claim("C38", "partial", ["position_cmp_swap", "position_cmp_trans", "position_cmp_eq", "position_cmp_not_consistent",
      "token_cmp_not_consistent", "position_cmp_consistent_partial", "position_cmp_prefix", "tokens_strictly_ordered", "references_strictly_ordered"],
      "The preorder laws hold; `cmp = Equal iff equal` is false of the code (two witnesses) and is proved for positions of one text.")
claim("C39", "partial", ["surrounding_trivia_leading_partial", "surrounding_trivia_partial", "surrounding_trivia_single", "surrounding_trivia_brackets"],
      "False of the code (two witnesses). The leading trivia is right for every node; the trailing trivia for nodes of at least two tokens whose last declared parts are the last printed ones.")
claim("C40", "partial", ["reparse_partial", "reparse_of_lossless", "kept_reparse"], "Corollary of C18, with its side conditions.")
claim("C41", "proved", ["sections_nest", "brace_closes_brace"], "Proved for every source, with or without tokenizer errors.")
claim("C42", "proved", ["visitor_nests", "visitor_nests_ast"])
claim("C43", "partial", ["accepted_grammar_partial", "parse_grammar", "accepted_chosen", "kept_grammar", "all_available_partial", "accepted_grammar_fails"],
      "Proved without Luau, and with Luau if the parser skipped nothing or the Ast has every token; false of other accepted Luau sources (witness). No tree of the parser has a node of an inactive version.")

claim("C45", "proved", ["formatting_irrelevant", "accepted_reformatted", "double_brace_depends_on_space"])
claim("C44", "proved", ["accepted_iff", "grammar_accepted", "grammar_accepted_dropping", "grammar_unambiguous"])
claim("C46", "proved", ["respaced_tokens", "respaced_parse", "respaced_accepted", "touching_tokens_can_merge", "interpolation_depends_on_space"])
claim("C47", "proved", ["written_tree_parses", "printed_tree_parses", "spaced_tree_parses", "read_token_alone"],
      "For Luau the trees must be those that are read (Chosen, see C50). written_tree_parses covers all tokens, interpolated strings included; the second form, where each pair of neighbours is judged on its own, leaves interpolated strings out.")
claim("C48", "proved", ["with_then_get", "with_visible", "with_typed", "with_with", "with_comm", "with_prints", "accessors_show_all", "ast_with", "interpolated_expressions", "interpolated_form", "block_display", "spaces_print", "withToken_display"],
      "The printed text is stated except for brackets and for lists of names with their annotations, which are printed in several pieces.")
claim("C49", "partial", ["readable_parses", "numericFor_new", "genericFor_new", "doBlock_new", "repeatBlock_new", "elseIf_new", "whileBlock_new_partial",
      "ifBlock_new_partial", "ret_new", "tableCtor_new", "assignment_new", "localAssignment_new", "emptyArgs_new", "functionCall_new", "methodCall_new", "funcBody_new",
      "anonFunc_new", "localFunction_new", "functionName_new", "functionDecl_new", "label_new", "attribute_new", "gotoStmt_new_partial", "block_new",
      "luau_types_new", "luau_exprs_new", "typeField_new", "typeAssertion_new", "typeDecl_new", "typeSpec_new", "typeFunction_new", "typeParam_new",
      "genericDecl_new_partial", "typeInst_new_partial", "elseIfExpr_new", "ifExpr_new_partial", "luauAttr_new", "typeInst_glued", "goto_glued", "if_glued", "while_glued", "elseif_glued", "ifExpr_glued", "attribute_glued", "compoundAssignment_new", "varExpr_new", "typeUnion_new", "typeIntersection_new", "interpString_new"],
      "False of seven constructors (witnesses goto_glued etc.: they leave out white space); proved for the others, and for `if`, `while`, `goto` and conditional expressions with white space around the part, for type instantiations without Lua 5.3. Parts that come directly behind a token without white space must not start with a comment. In Luau the parts must be those that are read where the text has several readings (Readable.chosen); trees with interpolated strings are not covered. luau_types_new and luau_exprs_new are the conformance without these conditions.")

claim("C50", "proved", ["chosen_accepted", "chosen_accepted_dropping", "chosen_iff", "chosen_unambiguous", "kept_iff", "rejected_or_lost"],
      "The condition on the nodes is Spec/Luau.lean. chosen_iff is the equivalence: the sources accepted with nothing skipped are exactly those of the grammar with this reading.")
claim("C51", "proved", ["lexical_grammar", "lexical_grammar_unambiguous", "accepted_lexes"],
      "The grammar is Spec/Lexical.lean; it describes the tokens by their characters. Of a source with a #! line the theorem is about the results that keep the line (an error in the first token behind it is lost, see C02).")
claim("C52", "partial", ["visitors_agree_on_nodes", "visitors_agree_partial", "visitors_disagree", "recorder_changes_nothing", "visitor_once_per_node",
      "mut_visitor_once_per_node", "visitor_skips_excess", "contained_span_never_visited", "rewriter_rewrites", "all_hooks"],
      "The hooks on nodes are called as claimed if there are no annotations in excess of the names (witness visitor_skips_excess), which is so of all trees of the parser (all_hooks); the hooks on tokens differ between mutable and immutable visitors (witness visitors_disagree). For visit_x hooks that change the node see C55.")
claim("C53", "partial", ["error_ranges_partial", "error_starts_partial", "error_ends_partial", "error_default_range", "error_range_inverted", "printed_tokenizer_error", "printed_syntax_error", "printed_kinds", "printed_place", "printed_syntax_place", "printed_message"],
      "Not so of the code: the range of a block that is not closed may end at a token invented by error recovery, before it starts (witness error_range_inverted). Proved: the range goes from the start of one token to the end of another, of the source or invented; what is printed tells the range (for syntax errors if the message is known).")
claim("C54", "proved", ["tokenizes_iff", "source_accepted", "source_accepted_iff", "source_unambiguous"],
      "The right-hand sides mention only Spec/Lexical.lean, Spec/Source.lean (positions and trivia), the grammar and Spec/Luau.lean. A superfluous last statement that the parser drops (C35) is allowed for.")
claim("C55", "proved", ["visit_ends_once", "file_visit_ends", "changing_nothing_ends", "replaced_then_visited", "replacer_rewrites", "replaced_typed", "replacing_ends",
      "replacing_smaller_ends", "replacing_may_not_end"],
      "The visit runs with fuel in the model, VisitEnds says that it ends with some fuel and visit_ends_once that the fuel does not matter. visit_x hooks replace nodes by a function of the node and change the state by a function of the hook; visit_token and visit_x_end hooks are arbitrary in replaced_then_visited. replacing_may_not_end: a visitor that puts parentheses around every expression never ends.")
claim("C56", "partial", ["saved_node_partial", "saved_ast_partial", "parsed_saved_partial", "saved_error_partial", "saved_lexRes_partial",
      "parsed_not_restored", "error_not_restored", "all_saved_partial"],
      "Not so of the code (witnesses parsed_not_restored, error_not_restored): ordinary strings, and with Luau or Lua 5.4 local assignments without annotations, are stored without a field that reading requires. Proved: the exact condition for reading back, and that reading never gives anything else.")
claim("C57", "proved", ["same_saved_node", "same_saved_ast", "same_saved_parsed", "same_saved_different", "kept_same_saved", "all_same_saved"],
      "The trees themselves may differ in lists of annotations that are all None (witness same_saved_different). Trees only use fields that exist with the compiled features.")
claim("C58", "partial", ["result_says", "collected_says", "errors_complete_partial", "errors_lost", "ast_result_says"],
      "False of the code in one point (witness errors_lost): LexerResult::errors returns nothing for a fatal result although it has errors. Everything else is proved.")
claim("C59", "proved", ["all_tokens_named", "while_tokens", "operator_token"],
      "For all trees, with or without errors; Spec/Slots.lean compares the tokens in every field with the grammar of Spec/Grammar.lean. arrow_kept is the one exception, which the statement names.")
claim("C60", "proved", ["later_version", "from_lua52_on"],
      "The provisos are needed: witnesses goto_becomes_keyword, hex_point_goes_on, suffix_goes_on. Luau is excluded because its trees have additional lists of types and it reads some programs of Lua 5.1 differently.")
claim("C61", "proved", ["luau_accepts_lua51", "luau_same_tree"],
      "The provisos are needed: witnesses underscore_goes_on, binary_goes_on, backticks_interpolate (and those of C60 for combinations of versions). luauTree, a small function in Spec/FromLua51.lean, states the difference of the trees.")
claim("C62", "proved", ["blocks_are_programs", "statements_are_programs", "last_statements_are_programs", "expressions_can_be_returned"],
      "Within, ofStmt, ofLast, ofExpr and ReadAs are in Spec/Within.lean; holds in all versions.")
claim("C63", "partial", ["interpolated_sections_partial", "unfinished_string_accepted", "string_between_expressions"],
      "False of the code: expect_interpolated_string takes any backtick token behind an expression as the next section, so `a{x`b{y}` (two strings opened, one closed) and `a{x`b`y}c` (two expressions in one pair of braces) are accepted. Proved: the first section opens, the last one closes, none between closes.")
claim("C64", "proved", ["shebang_tokens", "shebang_irrelevant", "shebang_accepted", "shebang_hides_error"],
      "shebang_hides_error: the restriction to sources without tokenizer errors is needed. Extends C62, C54 and others, which are about sources without a #! line, to sources with one.")
claim("C65", "proved", ["programs_append", "tokens_append", "paren_continues", "label_continues", "no_line_break"],
      "The conditions on (, :: and the line break are needed: the last three theorems. That nothing of the second source is dropped as a superfluous last statement (C18) is the hypothesis Tokenizes.")
claim("C66", "proved", ["blocks_can_be_exchanged", "exchanged_blocks_parse", "exchanged_conforms", "expressions_cannot_be_exchanged"],
      "The last theorem shows that the same is not true of expressions.")
claim("C67", "proved", ["block_text_exchanged", "tokens_spliced", "line_before_needed", "line_behind_needed", "open_string_behind"],
      "The last three theorems show that the conditions are needed (the last one because of C63). That nothing of the first source is dropped as a superfluous last statement (C18) is the hypothesis Tokenizes.")
claim("C68", "proved", ["errors_explained", "stray_once", "stray_in_order", "stray_not_end", "stray_unreported"],
      "stray_unreported: the converse does not hold, a skipped token far behind the reported one is not reported although there are statements between them (DESIGN.md section 4).")
claim("C69", "proved", ["statements_kept", "program_kept", "text_kept", "last_kept", "text_last_kept", "statement_changed", "value_lost", "return_changed"],
      "statements_kept is about any list of statements of the grammar with the exact tokens, program_kept about the tokens up to trivia, text_kept about texts; last_kept and text_last_kept are about programs with a last statement. The last three theorems show that the condition on the first token behind the program is needed.")
claim("C70", "proved", ["names_irrelevant", "accepted_alike", "tokens_same_places", "accepted_renamed", "exchanged_words", "renamed_text", "special_names_matter"],
      "names_irrelevant covers sources with errors, tokenizer errors included (these stay equal up to their ranges). special_names_matter shows for each of the six names that it cannot be left out of the exception. A section of an interpolated string keeps whether something follows it, as in C45.")
claim("C71", "proved", ["first_error", "first_error_exists", "first_error_unique", "tokens_or_stuck", "first_error_parsed", "ok_token_lexeme", "number_grammar", "first_error_position"],
      "Sources with a #! line are excluded: there the first error can be lost (shebang_hides_error, C64).")
claim("C72", "proved", ["hook_name_made", "hooks_of_types_differ", "hooks_first_last", "hook_declared", "hooks_not_both", "hooks_not_named"],
      "The table of declared hooks is that of all features together. hooks_not_named: visit_anonymous_call and visit_contained_span are declared and not named after a node type; they are never called (C52).")
json.dump(dict(claims=C), open("/verif/MANIFEST.json", "w"), indent=1)
