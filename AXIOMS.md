# Axioms of the theorems in MANIFEST.json

Generated by `tools/axioms.py` with `#print axioms`.

| property | theorem | axioms |
|---|---|---|
| C01 | `FM.Props.tokenize_lossless` | propext, Classical.choice, Quot.sound |
| C01 | `FM.Props.shebangKept_of_no_shebang` | — |
| C01 | `FM.Props.tokenize_not_lossless_after_shebang` | propext, Quot.sound |
| C02 | `FM.Props.ok_token_is_slice` | propext, Classical.choice, Quot.sound |
| C02 | `FM.Props.every_token_is_slice` | propext, Classical.choice, Quot.sound |
| C02 | `FM.Props.step_prints_consumed` | propext, Classical.choice, Quot.sound |
| C03 | `FM.Props.token_positions` | propext, Classical.choice, Quot.sound |
| C03 | `FM.Props.token_start_positions` | propext, Classical.choice, Quot.sound |
| C04 | `FM.Props.tokens_tile` | propext, Classical.choice, Quot.sound |
| C05 | `FM.Props.eof_once_last` | propext, Classical.choice, Quot.sound |
| C05 | `FM.Props.no_eof_after_shebang` | propext, Quot.sound |
| C06 | `FM.Props.tokenize_terminates` | propext, Classical.choice, Quot.sound |
| C06 | `FM.Props.tokenize_length` | propext, Classical.choice, Quot.sound |
| C06 | `FM.Props.step_consumes` | propext, Classical.choice, Quot.sound |
| C07 | `FM.Props.tokenize_no_panic_partial` | propext, Classical.choice, Quot.sound |
| C07 | `FM.Props.tokenize_panics_on_backtick` | propext, Quot.sound |
| C07 | `FM.Props.step_panics_iff` | propext, Quot.sound |
| C08 | `FM.Props.streaming_is_cursor` | propext, Classical.choice, Quot.sound |
| C09 | `FM.Props.trivia_attachment` | propext, Classical.choice, Quot.sound |
| C09 | `FM.Props.trivia_divided` | propext, Classical.choice, Quot.sound |
| C10 | `FM.Props.words_are_keywords_or_identifiers` | propext, Classical.choice, Quot.sound |
| C10 | `FM.Props.word_token` | propext, Classical.choice, Quot.sound |
| C11 | `FM.Props.symbol_round_trip` | propext, Classical.choice, Quot.sound |
| C11 | `FM.Props.symbol_text_injective` | propext, Quot.sound |
| C11 | `FM.Props.fromStr_iff` | propext, Classical.choice, Quot.sound |
| C11 | `FM.Props.fromStr_none_iff` | propext, Classical.choice, Quot.sound |
| C12 | `FM.Props.symbols_enabled` | propext, Classical.choice, Quot.sound |
| C12 | `FM.Props.lua51_symbols` | propext, Classical.choice, Quot.sound |
| C13 | `FM.Props.long_bracket_closes_first` | propext, Classical.choice, Quot.sound |
| C14 | `FM.Props.errors_point_into_source` | propext, Classical.choice, Quot.sound |
| C14 | `FM.Props.failed_results_have_errors` | propext, Classical.choice, Quot.sound |
| C15 | `FM.Props.number_points_partial` | propext, Classical.choice, Quot.sound |
| C15 | `FM.Props.number_two_points` | propext, Quot.sound |
| C15 | `FM.Props.number_grammar` | propext, Classical.choice, Quot.sound |
| C16 | `FM.Props.symbol_specific_sound` | propext, Classical.choice, Quot.sound |
| C16 | `FM.Props.symbol_specific_complete` | propext, Classical.choice, Quot.sound |
| C17 | `FM.Props.version_or_assoc` | propext, Quot.sound |
| C17 | `FM.Props.version_or_comm` | propext, Quot.sound |
| C17 | `FM.Props.version_or_self` | propext, Quot.sound |
| C17 | `FM.Props.version_or_lua51` | propext, Quot.sound |
| C17 | `FM.Props.version_has_or` | propext, Quot.sound |
| C17 | `FM.Props.version_only_has` | propext, Quot.sound |
| C17 | `FM.Props.version_with_has` | propext, Quot.sound |
| C17 | `FM.Props.version_has_compiled` | propext, Quot.sound |
| C17 | `FM.Props.version_includes` | propext, Quot.sound |
| C17 | `FM.Props.version_default_has` | propext, Quot.sound |
| C18 | `FM.Props.accepted_lossless_partial` | propext, Classical.choice, Quot.sound |
| C18 | `FM.Props.parse_lossless_partial` | propext, Classical.choice, Quot.sound |
| C18 | `FM.Props.parse_lossless_count_partial` | propext, Classical.choice, Quot.sound |
| C18 | `FM.Props.shebang_lost` | propext, Quot.sound |
| C18 | `FM.Props.last_statement_dropped` | propext, Quot.sound |
| C18 | `FM.Props.luau_skips_tokens` | propext, Quot.sound |
| C18 | `FM.Props.kept_lossless` | propext, Classical.choice, Quot.sound |
| C19 | `FM.Props.accepted_tokens_partial` | propext, Classical.choice, Quot.sound |
| C19 | `FM.Props.parse_tokens_partial` | propext, Classical.choice, Quot.sound |
| C19 | `FM.Props.parse_tokens_exact_partial` | propext, Classical.choice, Quot.sound |
| C19 | `FM.Props.last_statement_dropped` | propext, Quot.sound |
| C19 | `FM.Props.luau_skips_tokens` | propext, Quot.sound |
| C19 | `FM.Props.kept_tokens` | propext, Classical.choice, Quot.sound |
| C19 | `FM.Props.kept_or_lost` | propext, Classical.choice, Quot.sound |
| C19 | `FM.Props.accepted_unfinished` | propext, Quot.sound |
| C20 | `FM.Props.parse_ok_iff` | propext, Quot.sound |
| C20 | `FM.Props.parse_error_iff` | propext, Quot.sound |
| C20 | `FM.Props.tokenizer_errors_reported` | propext, Classical.choice, Quot.sound |
| C20 | `FM.Props.parse_ok_no_tokenizer_error` | propext, Classical.choice, Quot.sound |
| C21 | `FM.Props.parse_no_panic_partial` | propext, Classical.choice, Quot.sound |
| C21 | `FM.Props.parse_no_panic_lua_partial` | propext, Classical.choice, Quot.sound |
| C21 | `FM.Props.parse_no_panic_stream_partial` | propext, Classical.choice, Quot.sound |
| C21 | `FM.Props.parse_panics_shebang` | propext, Quot.sound |
| C21 | `FM.Props.parse_panics_luau` | propext, Quot.sound |
| C21 | `FM.Props.parse_panics_operator` | propext, Quot.sound |
| C22 | `FM.Props.parse_terminates` | propext, Classical.choice, Quot.sound |
| C23 | `FM.Props.accepted_precedence_partial` | propext, Classical.choice, Quot.sound |
| C23 | `FM.Props.parse_precedence_partial` | propext, Classical.choice, Quot.sound |
| C23 | `FM.Props.precedence_fails_with_errors` | propext, Quot.sound |
| C23 | `FM.Props.kept_precedence` | propext, Classical.choice, Quot.sound |
| C23 | `FM.Props.accepted_precedence_fails` | propext, Quot.sound |
| C24 | `FM.Props.binop_accept_iff` | propext, Quot.sound |
| C24 | `FM.Props.binop_precedence` | propext, Quot.sound |
| C24 | `FM.Props.binop_order` | propext, Classical.choice, Quot.sound |
| C24 | `FM.Props.binop_associativity` | propext, Quot.sound |
| C24 | `FM.Props.precedence_of_token_iff` | propext, Quot.sound |
| C24 | `FM.Props.binop_precedence_panics` | propext, Quot.sound |
| C24 | `FM.Props.precedence_of_inactive_operator` | propext, Quot.sound |
| C25 | `FM.Props.tokens_permutation` | propext, Classical.choice, Quot.sound |
| C25 | `FM.Props.tokens_permutation_needs_fit` | propext, Quot.sound |
| C25 | `FM.Props.parsed_tokens` | propext, Classical.choice, Quot.sound |
| C25 | `FM.Props.kept_iteration` | propext, Classical.choice, Quot.sound |
| C25 | `FM.Props.all_tokens` | propext, Classical.choice, Quot.sound |
| C26 | `FM.Props.tokens_double_ended` | propext, Quot.sound |
| C26 | `FM.Props.tokens_collect` | propext, Quot.sound |
| C26 | `FM.Props.twoEnded_middle` | propext, Classical.choice, Quot.sound |
| C27 | `FM.Props.parsed_range_start_partial` | propext, Classical.choice, Quot.sound |
| C27 | `FM.Props.parsed_range_partial` | propext, Classical.choice, Quot.sound |
| C27 | `FM.Props.range_start_partial` | propext, Classical.choice, Quot.sound |
| C27 | `FM.Props.range_partial` | propext, Classical.choice, Quot.sound |
| C27 | `FM.Props.range_index` | propext, Classical.choice, Quot.sound |
| C27 | `FM.Props.range_local` | propext, Quot.sound |
| C28 | `FM.Props.similar_iff_shape` | propext, Classical.choice, Quot.sound |
| C28 | `FM.Props.similar_refl` | propext, Classical.choice, Quot.sound |
| C28 | `FM.Props.similar_symm` | propext, Classical.choice, Quot.sound |
| C28 | `FM.Props.similar_trans` | propext, Classical.choice, Quot.sound |
| C28 | `FM.Props.similar_mapTok` | propext, Classical.choice, Quot.sound |
| C28 | `FM.Props.similar_ignores_separators` | propext, Quot.sound |
| C29 | `FM.Props.default_visitor_partial` | propext, Classical.choice, Quot.sound |
| C29 | `FM.Props.default_visitor_printed_partial` | propext, Classical.choice, Quot.sound |
| C29 | `FM.Props.default_visitor_changes` | propext, Quot.sound |
| C29 | `FM.Props.parsed_default_visitor_partial` | propext, Classical.choice, Quot.sound |
| C29 | `FM.Props.parsed_default_visitor_printed` | propext, Classical.choice, Quot.sound |
| C29 | `FM.Props.parsed_annotations_missing` | propext, Quot.sound |
| C29 | `FM.Props.parsed_default_visitor_changes` | propext, Quot.sound |
| C29 | `FM.Props.kept_default_visitor_partial` | propext, Classical.choice, Quot.sound |
| C29 | `FM.Props.all_default_visitor_partial` | propext, Classical.choice, Quot.sound |
| C30 | `FM.Props.visitor_shows_partial` | propext, Classical.choice, Quot.sound |
| C30 | `FM.Props.visitor_sees_tokens_partial` | propext, Classical.choice, Quot.sound |
| C30 | `FM.Props.visitor_skips_comma` | propext, Quot.sound |
| C30 | `FM.Props.visitor_type_instantiation` | propext, Classical.choice, Quot.sound |
| C31 | `FM.Props.token_visitor_pointwise` | propext, Classical.choice, Quot.sound |
| C31 | `FM.Props.token_visitor_printed` | propext, Classical.choice, Quot.sound |
| C31 | `FM.Props.visitor_in_order` | propext, Classical.choice, Quot.sound |
| C31 | `FM.Props.token_visitor_in_order` | propext, Classical.choice, Quot.sound |
| C31 | `FM.Props.parsed_token_visitor` | propext, Classical.choice, Quot.sound |
| C31 | `FM.Props.kept_token_visitor` | propext, Classical.choice, Quot.sound |
| C31 | `FM.Props.all_token_visitor` | propext, Classical.choice, Quot.sound |
| C32 | `FM.Props.update_positions_partial` | propext, Classical.choice, Quot.sound |
| C32 | `FM.Props.update_positions_unchanged_partial` | propext, Classical.choice, Quot.sound |
| C32 | `FM.Props.update_positions_misses_eof` | propext, Quot.sound |
| C32 | `FM.Props.parsed_positions` | propext, Classical.choice, Quot.sound |
| C32 | `FM.Props.parsed_update_positions` | propext, Classical.choice, Quot.sound |
| C32 | `FM.Props.kept_update_positions` | propext, Classical.choice, Quot.sound |
| C32 | `FM.Props.all_update_positions_partial` | propext, Classical.choice, Quot.sound |
| C33 | `FM.Props.punctuated_history` | propext, Quot.sound |
| C33 | `FM.Props.punctuated_observers` | propext, Quot.sound |
| C33 | `FM.Props.pop_push` | propext |
| C33 | `FM.Props.forEachMut_contents` | propext, Quot.sound |
| C33 | `FM.Props.pair_observers` | propext |
| C33 | `FM.Props.push_punctuated_punctual` | propext, Quot.sound |
| C33 | `FM.Props.punctuated_display` | propext, Quot.sound |
| C33 | `FM.Props.contents_injective` | propext |
| C33 | `FM.Props.punctuated_pairs` | — |
| C33 | `FM.Props.extend_pushes` | propext |
| C34 | `FM.Props.push_punctuated_spec` | propext, Quot.sound |
| C35 | `FM.Props.accepted_blocks_partial` | propext, Classical.choice, Quot.sound |
| C35 | `FM.Props.parse_blocks_partial` | propext, Classical.choice, Quot.sound |
| C35 | `FM.Props.two_last_statements` | propext, Quot.sound |
| C35 | `FM.Props.kept_blocks` | propext, Classical.choice, Quot.sound |
| C35 | `FM.Props.all_blocks_partial` | propext, Classical.choice, Quot.sound |
| C35 | `FM.Props.statements_moved` | propext, Quot.sound |
| C36 | `FM.Props.error_tokens_partial` | propext, Classical.choice, Quot.sound |
| C36 | `FM.Props.error_token_invented` | propext, Quot.sound |
| C37 | `FM.Props.ast_tokens_partial` | propext, Classical.choice, Quot.sound |
| C37 | `FM.Props.phantom_position` | propext, Quot.sound |
| C37 | `FM.Props.documented_phantom` | propext, Quot.sound |
| C38 | `FM.Props.position_cmp_swap` | propext |
| C38 | `FM.Props.position_cmp_trans` | propext, Quot.sound |
| C38 | `FM.Props.position_cmp_eq` | propext |
| C38 | `FM.Props.position_cmp_not_consistent` | — |
| C38 | `FM.Props.token_cmp_not_consistent` | — |
| C38 | `FM.Props.position_cmp_consistent_partial` | propext, Quot.sound |
| C38 | `FM.Props.position_cmp_prefix` | propext, Classical.choice, Quot.sound |
| C38 | `FM.Props.tokens_strictly_ordered` | propext, Classical.choice, Quot.sound |
| C38 | `FM.Props.references_strictly_ordered` | propext, Classical.choice, Quot.sound |
| C39 | `FM.Props.surrounding_trivia_leading_partial` | propext, Classical.choice, Quot.sound |
| C39 | `FM.Props.surrounding_trivia_partial` | propext, Classical.choice, Quot.sound |
| C39 | `FM.Props.surrounding_trivia_single` | propext, Quot.sound |
| C39 | `FM.Props.surrounding_trivia_brackets` | propext, Classical.choice, Quot.sound |
| C40 | `FM.Props.reparse_partial` | propext, Classical.choice, Quot.sound |
| C40 | `FM.Props.reparse_of_lossless` | propext, Quot.sound |
| C40 | `FM.Props.kept_reparse` | propext, Classical.choice, Quot.sound |
| C41 | `FM.Props.sections_nest` | propext, Classical.choice, Quot.sound |
| C41 | `FM.Props.brace_closes_brace` | propext, Classical.choice, Quot.sound |
| C42 | `FM.Props.visitor_nests` | propext, Quot.sound |
| C42 | `FM.Props.visitor_nests_ast` | propext, Quot.sound |
| C43 | `FM.Props.accepted_grammar_partial` | propext, Classical.choice, Quot.sound |
| C43 | `FM.Props.parse_grammar` | propext, Classical.choice, Quot.sound |
| C43 | `FM.Props.accepted_chosen` | propext, Classical.choice, Quot.sound |
| C43 | `FM.Props.kept_grammar` | propext, Classical.choice, Quot.sound |
| C43 | `FM.Props.all_available_partial` | propext, Classical.choice, Quot.sound |
| C43 | `FM.Props.accepted_grammar_fails` | propext, Classical.choice, Quot.sound |
| C45 | `FM.Props.formatting_irrelevant` | propext, Quot.sound |
| C45 | `FM.Props.accepted_reformatted` | propext, Classical.choice, Quot.sound |
| C45 | `FM.Props.double_brace_depends_on_space` | propext, Quot.sound |
| C44 | `FM.Props.accepted_iff` | propext, Classical.choice, Quot.sound |
| C44 | `FM.Props.grammar_accepted` | propext, Classical.choice, Quot.sound |
| C44 | `FM.Props.grammar_accepted_dropping` | propext, Classical.choice, Quot.sound |
| C44 | `FM.Props.grammar_unambiguous` | propext, Classical.choice, Quot.sound |
| C46 | `FM.Props.respaced_tokens` | propext, Classical.choice, Quot.sound |
| C46 | `FM.Props.respaced_parse` | propext, Classical.choice, Quot.sound |
| C46 | `FM.Props.respaced_accepted` | propext, Classical.choice, Quot.sound |
| C46 | `FM.Props.touching_tokens_can_merge` | propext, Quot.sound |
| C46 | `FM.Props.interpolation_depends_on_space` | propext, Quot.sound |
| C47 | `FM.Props.written_tree_parses` | propext, Classical.choice, Quot.sound |
| C47 | `FM.Props.printed_tree_parses` | propext, Classical.choice, Quot.sound |
| C47 | `FM.Props.spaced_tree_parses` | propext, Classical.choice, Quot.sound |
| C47 | `FM.Props.read_token_alone` | propext, Classical.choice, Quot.sound |
| C48 | `FM.Props.with_then_get` | propext |
| C48 | `FM.Props.with_visible` | — |
| C48 | `FM.Props.with_typed` | propext |
| C48 | `FM.Props.with_with` | propext |
| C48 | `FM.Props.with_comm` | propext |
| C48 | `FM.Props.with_prints` | propext, Quot.sound |
| C48 | `FM.Props.accessors_show_all` | propext, Quot.sound |
| C48 | `FM.Props.ast_with` | propext |
| C48 | `FM.Props.interpolated_expressions` | propext, Quot.sound |
| C48 | `FM.Props.interpolated_form` | propext, Quot.sound |
| C48 | `FM.Props.block_display` | propext, Quot.sound |
| C48 | `FM.Props.spaces_print` | propext |
| C48 | `FM.Props.withToken_display` | — |
| C49 | `FM.Props.readable_parses` | propext, Classical.choice, Quot.sound |
| C49 | `FM.Props.numericFor_new` | propext, Classical.choice, Quot.sound |
| C49 | `FM.Props.genericFor_new` | propext, Classical.choice, Quot.sound |
| C49 | `FM.Props.doBlock_new` | propext, Classical.choice, Quot.sound |
| C49 | `FM.Props.repeatBlock_new` | propext, Classical.choice, Quot.sound |
| C49 | `FM.Props.elseIf_new` | propext, Classical.choice, Quot.sound |
| C49 | `FM.Props.whileBlock_new_partial` | propext, Classical.choice, Quot.sound |
| C49 | `FM.Props.ifBlock_new_partial` | propext, Classical.choice, Quot.sound |
| C49 | `FM.Props.ret_new` | propext, Classical.choice, Quot.sound |
| C49 | `FM.Props.tableCtor_new` | propext, Classical.choice, Quot.sound |
| C49 | `FM.Props.assignment_new` | propext, Classical.choice, Quot.sound |
| C49 | `FM.Props.localAssignment_new` | propext, Classical.choice, Quot.sound |
| C49 | `FM.Props.emptyArgs_new` | propext, Classical.choice, Quot.sound |
| C49 | `FM.Props.functionCall_new` | propext, Classical.choice, Quot.sound |
| C49 | `FM.Props.methodCall_new` | propext, Classical.choice, Quot.sound |
| C49 | `FM.Props.funcBody_new` | propext, Classical.choice, Quot.sound |
| C49 | `FM.Props.anonFunc_new` | propext, Classical.choice, Quot.sound |
| C49 | `FM.Props.localFunction_new` | propext, Classical.choice, Quot.sound |
| C49 | `FM.Props.functionName_new` | propext, Quot.sound |
| C49 | `FM.Props.functionDecl_new` | propext, Classical.choice, Quot.sound |
| C49 | `FM.Props.label_new` | propext, Classical.choice, Quot.sound |
| C49 | `FM.Props.attribute_new` | propext, Classical.choice, Quot.sound |
| C49 | `FM.Props.gotoStmt_new_partial` | propext, Classical.choice, Quot.sound |
| C49 | `FM.Props.block_new` | propext, Quot.sound |
| C49 | `FM.Props.luau_types_new` | propext, Classical.choice, Quot.sound |
| C49 | `FM.Props.luau_exprs_new` | propext, Classical.choice, Quot.sound |
| C49 | `FM.Props.typeField_new` | propext, Classical.choice, Quot.sound |
| C49 | `FM.Props.typeAssertion_new` | propext, Classical.choice, Quot.sound |
| C49 | `FM.Props.typeDecl_new` | propext, Classical.choice, Quot.sound |
| C49 | `FM.Props.typeSpec_new` | propext, Classical.choice, Quot.sound |
| C49 | `FM.Props.typeFunction_new` | propext, Classical.choice, Quot.sound |
| C49 | `FM.Props.typeParam_new` | propext, Quot.sound |
| C49 | `FM.Props.genericDecl_new_partial` | propext, Classical.choice, Quot.sound |
| C49 | `FM.Props.typeInst_new_partial` | propext, Classical.choice, Quot.sound |
| C49 | `FM.Props.elseIfExpr_new` | propext, Classical.choice, Quot.sound |
| C49 | `FM.Props.ifExpr_new_partial` | propext, Classical.choice, Quot.sound |
| C49 | `FM.Props.luauAttr_new` | propext, Classical.choice, Quot.sound |
| C49 | `FM.Props.typeInst_glued` | propext, Quot.sound |
| C49 | `FM.Props.goto_glued` | propext, Quot.sound |
| C49 | `FM.Props.if_glued` | propext, Quot.sound |
| C49 | `FM.Props.while_glued` | propext, Quot.sound |
| C49 | `FM.Props.elseif_glued` | propext, Quot.sound |
| C49 | `FM.Props.ifExpr_glued` | propext, Quot.sound |
| C49 | `FM.Props.attribute_glued` | propext, Quot.sound |
| C49 | `FM.Props.compoundAssignment_new` | propext, Quot.sound |
| C49 | `FM.Props.varExpr_new` | propext, Quot.sound |
| C49 | `FM.Props.typeUnion_new` | propext, Quot.sound |
| C49 | `FM.Props.typeIntersection_new` | propext, Quot.sound |
| C49 | `FM.Props.interpString_new` | propext, Quot.sound |
| C50 | `FM.Props.chosen_accepted` | propext, Classical.choice, Quot.sound |
| C50 | `FM.Props.chosen_accepted_dropping` | propext, Classical.choice, Quot.sound |
| C50 | `FM.Props.chosen_iff` | propext, Classical.choice, Quot.sound |
| C50 | `FM.Props.chosen_unambiguous` | propext, Classical.choice, Quot.sound |
| C50 | `FM.Props.kept_iff` | propext, Classical.choice, Quot.sound |
| C50 | `FM.Props.rejected_or_lost` | propext, Classical.choice, Quot.sound |
| C51 | `FM.Props.lexical_grammar` | propext, Classical.choice, Quot.sound |
| C51 | `FM.Props.lexical_grammar_unambiguous` | propext, Classical.choice, Quot.sound |
| C51 | `FM.Props.accepted_lexes` | propext, Classical.choice, Quot.sound |
| C52 | `FM.Props.visitors_agree_on_nodes` | propext, Classical.choice, Quot.sound |
| C52 | `FM.Props.visitors_agree_partial` | propext, Classical.choice, Quot.sound |
| C52 | `FM.Props.visitors_disagree` | propext, Classical.choice, Quot.sound |
| C52 | `FM.Props.recorder_changes_nothing` | propext, Classical.choice, Quot.sound |
| C52 | `FM.Props.visitor_once_per_node` | propext, Classical.choice, Quot.sound |
| C52 | `FM.Props.mut_visitor_once_per_node` | propext, Classical.choice, Quot.sound |
| C52 | `FM.Props.visitor_skips_excess` | propext, Quot.sound |
| C52 | `FM.Props.contained_span_never_visited` | propext, Classical.choice, Quot.sound |
| C52 | `FM.Props.rewriter_rewrites` | propext, Classical.choice, Quot.sound |
| C52 | `FM.Props.all_hooks` | propext, Classical.choice, Quot.sound |
| C53 | `FM.Props.error_ranges_partial` | propext, Classical.choice, Quot.sound |
| C53 | `FM.Props.error_starts_partial` | propext, Classical.choice, Quot.sound |
| C53 | `FM.Props.error_ends_partial` | propext, Classical.choice, Quot.sound |
| C53 | `FM.Props.error_default_range` | propext, Classical.choice, Quot.sound |
| C53 | `FM.Props.error_range_inverted` | propext, Quot.sound |
| C53 | `FM.Props.printed_tokenizer_error` | propext, Classical.choice, Quot.sound |
| C53 | `FM.Props.printed_syntax_error` | propext, Classical.choice, Quot.sound |
| C53 | `FM.Props.printed_kinds` | propext, Classical.choice, Quot.sound |
| C53 | `FM.Props.printed_place` | propext, Classical.choice, Quot.sound |
| C53 | `FM.Props.printed_syntax_place` | propext, Classical.choice, Quot.sound |
| C53 | `FM.Props.printed_message` | propext, Classical.choice, Quot.sound |
| C54 | `FM.Props.tokenizes_iff` | propext, Classical.choice, Quot.sound |
| C54 | `FM.Props.source_accepted` | propext, Classical.choice, Quot.sound |
| C54 | `FM.Props.source_accepted_iff` | propext, Classical.choice, Quot.sound |
| C54 | `FM.Props.source_unambiguous` | propext, Classical.choice, Quot.sound |
| C55 | `FM.Props.visit_ends_once` | propext, Classical.choice, Quot.sound |
| C55 | `FM.Props.file_visit_ends` | propext, Quot.sound |
| C55 | `FM.Props.changing_nothing_ends` | propext, Classical.choice, Quot.sound |
| C55 | `FM.Props.replaced_then_visited` | propext, Classical.choice, Quot.sound |
| C55 | `FM.Props.replacer_rewrites` | propext, Classical.choice, Quot.sound |
| C55 | `FM.Props.replaced_typed` | propext, Classical.choice, Quot.sound |
| C55 | `FM.Props.replacing_ends` | propext, Classical.choice, Quot.sound |
| C55 | `FM.Props.replacing_smaller_ends` | propext, Classical.choice, Quot.sound |
| C55 | `FM.Props.replacing_may_not_end` | propext, Classical.choice, Quot.sound |
| C56 | `FM.Props.saved_node_partial` | propext, Classical.choice, Quot.sound |
| C56 | `FM.Props.saved_ast_partial` | propext, Classical.choice, Quot.sound |
| C56 | `FM.Props.parsed_saved_partial` | propext, Classical.choice, Quot.sound |
| C56 | `FM.Props.saved_error_partial` | propext, Classical.choice, Quot.sound |
| C56 | `FM.Props.saved_lexRes_partial` | propext, Classical.choice, Quot.sound |
| C56 | `FM.Props.parsed_not_restored` | propext, Classical.choice, Quot.sound |
| C56 | `FM.Props.error_not_restored` | propext, Classical.choice, Quot.sound |
| C56 | `FM.Props.all_saved_partial` | propext, Classical.choice, Quot.sound |
| C57 | `FM.Props.same_saved_node` | propext, Classical.choice, Quot.sound |
| C57 | `FM.Props.same_saved_ast` | propext, Classical.choice, Quot.sound |
| C57 | `FM.Props.same_saved_parsed` | propext, Classical.choice, Quot.sound |
| C57 | `FM.Props.same_saved_different` | propext, Quot.sound |
| C57 | `FM.Props.kept_same_saved` | propext, Classical.choice, Quot.sound |
| C57 | `FM.Props.all_same_saved` | propext, Classical.choice, Quot.sound |
| C58 | `FM.Props.result_says` | propext, Classical.choice, Quot.sound |
| C58 | `FM.Props.collected_says` | propext, Classical.choice, Quot.sound |
| C58 | `FM.Props.errors_complete_partial` | propext |
| C58 | `FM.Props.errors_lost` | propext, Quot.sound |
| C58 | `FM.Props.ast_result_says` | propext, Quot.sound |
| C59 | `FM.Props.all_tokens_named` | propext, Classical.choice, Quot.sound |
| C59 | `FM.Props.while_tokens` | propext, Classical.choice, Quot.sound |
| C59 | `FM.Props.operator_token` | propext, Quot.sound |
| C60 | `FM.Props.later_version` | propext, Classical.choice, Quot.sound |
| C60 | `FM.Props.from_lua52_on` | propext, Classical.choice, Quot.sound |
| C61 | `FM.Props.luau_accepts_lua51` | propext, Classical.choice, Quot.sound |
| C61 | `FM.Props.luau_same_tree` | propext, Classical.choice, Quot.sound |
| C62 | `FM.Props.blocks_are_programs` | propext, Classical.choice, Quot.sound |
| C62 | `FM.Props.statements_are_programs` | propext, Classical.choice, Quot.sound |
| C62 | `FM.Props.last_statements_are_programs` | propext, Classical.choice, Quot.sound |
| C62 | `FM.Props.expressions_can_be_returned` | propext, Classical.choice, Quot.sound |
| C63 | `FM.Props.interpolated_sections_partial` | propext, Classical.choice, Quot.sound |
| C63 | `FM.Props.unfinished_string_accepted` | propext, Quot.sound |
| C63 | `FM.Props.string_between_expressions` | propext, Quot.sound |
| C64 | `FM.Props.shebang_tokens` | propext, Classical.choice, Quot.sound |
| C64 | `FM.Props.shebang_irrelevant` | propext, Classical.choice, Quot.sound |
| C64 | `FM.Props.shebang_accepted` | propext, Classical.choice, Quot.sound |
| C64 | `FM.Props.shebang_hides_error` | propext, Quot.sound |
| C65 | `FM.Props.programs_append` | propext, Classical.choice, Quot.sound |
| C65 | `FM.Props.tokens_append` | propext, Classical.choice, Quot.sound |
| C65 | `FM.Props.paren_continues` | propext, Quot.sound |
| C65 | `FM.Props.label_continues` | propext, Quot.sound |
| C65 | `FM.Props.no_line_break` | propext, Quot.sound |
| C66 | `FM.Props.blocks_can_be_exchanged` | propext, Classical.choice, Quot.sound |
| C66 | `FM.Props.exchanged_blocks_parse` | propext, Classical.choice, Quot.sound |
| C66 | `FM.Props.exchanged_conforms` | propext, Classical.choice, Quot.sound |
| C66 | `FM.Props.expressions_cannot_be_exchanged` | propext, Quot.sound |
| C67 | `FM.Props.block_text_exchanged` | propext, Classical.choice, Quot.sound |
| C67 | `FM.Props.tokens_spliced` | propext, Classical.choice, Quot.sound |
| C67 | `FM.Props.line_before_needed` | propext, Quot.sound |
| C67 | `FM.Props.line_behind_needed` | propext, Quot.sound |
| C67 | `FM.Props.open_string_behind` | propext, Quot.sound |
| C68 | `FM.Props.errors_explained` | propext, Classical.choice, Quot.sound |
| C68 | `FM.Props.stray_once` | propext, Classical.choice, Quot.sound |
| C68 | `FM.Props.stray_in_order` | propext, Classical.choice, Quot.sound |
| C68 | `FM.Props.stray_not_end` | propext, Classical.choice, Quot.sound |
| C68 | `FM.Props.stray_unreported` | propext, Quot.sound |
| C69 | `FM.Props.statements_kept` | propext, Classical.choice, Quot.sound |
| C69 | `FM.Props.program_kept` | propext, Classical.choice, Quot.sound |
| C69 | `FM.Props.text_kept` | propext, Classical.choice, Quot.sound |
| C69 | `FM.Props.last_kept` | propext, Classical.choice, Quot.sound |
| C69 | `FM.Props.text_last_kept` | propext, Classical.choice, Quot.sound |
| C69 | `FM.Props.statement_changed` | propext, Quot.sound |
| C69 | `FM.Props.value_lost` | propext, Quot.sound |
| C69 | `FM.Props.return_changed` | propext, Quot.sound |
| C70 | `FM.Props.names_irrelevant` | propext, Quot.sound |
| C70 | `FM.Props.accepted_alike` | propext, Quot.sound |
| C70 | `FM.Props.tokens_same_places` | propext, Classical.choice, Quot.sound |
| C70 | `FM.Props.accepted_renamed` | propext, Classical.choice, Quot.sound |
| C70 | `FM.Props.exchanged_words` | propext, Classical.choice, Quot.sound |
| C70 | `FM.Props.renamed_text` | propext, Classical.choice, Quot.sound |
| C70 | `FM.Props.special_names_matter` | propext, Quot.sound |
| C71 | `FM.Props.first_error` | propext, Classical.choice, Quot.sound |
| C71 | `FM.Props.first_error_exists` | propext, Classical.choice, Quot.sound |
| C71 | `FM.Props.first_error_unique` | propext, Classical.choice, Quot.sound |
| C71 | `FM.Props.tokens_or_stuck` | propext, Classical.choice, Quot.sound |
| C71 | `FM.Props.first_error_parsed` | propext, Classical.choice, Quot.sound |
| C71 | `FM.Props.ok_token_lexeme` | propext, Classical.choice, Quot.sound |
| C71 | `FM.Props.number_grammar` | propext, Classical.choice, Quot.sound |
| C71 | `FM.Props.first_error_position` | propext, Classical.choice, Quot.sound |
| C72 | `FM.Props.hook_name_made` | propext, Quot.sound |
| C72 | `FM.Props.hooks_of_types_differ` | propext, Quot.sound |
| C72 | `FM.Props.hooks_first_last` | propext, Quot.sound |
| C72 | `FM.Props.hook_declared` | propext, Quot.sound |
| C72 | `FM.Props.hooks_not_both` | propext, Quot.sound |
| C72 | `FM.Props.hooks_not_named` | propext |
