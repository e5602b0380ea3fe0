# Axioms each theorem depends on

Generated by `tools/axioms.py` (`Lean.collectAxioms`).

| property | theorem | axioms |
|---|---|---|
| C01 | `Dbml.Props.C01_parse_never_panics` | Classical.choice, Quot.sound, propext |
| C02 | `Dbml.Props.C02_parse_terminates` | Classical.choice, Quot.sound, propext |
| C03 | `Dbml.Props.C03_parse_errors` | Classical.choice, Quot.sound, propext |
| C03 | `Dbml.Props.C03_no_internal_errors` | Classical.choice, Quot.sound, propext |
| C04 | `Dbml.Props.C04_panics_iff` | Classical.choice, Quot.sound, propext |
| C04 | `Dbml.Props.C04_only_panic` | Classical.choice, Quot.sound, propext |
| C04 | `Dbml.Props.C04_no_panic` | Classical.choice, Quot.sound, propext |
| C04 | `Dbml.Props.C04_panic_reachable` | propext |
| C04 | `Dbml.Props.C04_terminates` | Classical.choice, Quot.sound, propext |
| C05 | `Dbml.Props.C05_checked_is_unchecked` | Quot.sound, propext |
| C05 | `Dbml.Props.C05_same_ast` | Quot.sound, propext |
| C05 | `Dbml.Props.C05_same_error` | propext |
| C06 | `Dbml.Props.C06_spans_valid` | Classical.choice, Quot.sound, propext |
| C07 | `Dbml.Props.C07_raw_is_source` | Classical.choice, Quot.sound, propext |
| C07 | `Dbml.Props.C07_raw_fields` | Classical.choice, Quot.sound, propext |
| C08 | `Dbml.Props.C08_blocks_in_order` | Classical.choice, Quot.sound, propext |
| C09 | `Dbml.Props.C09_children_inside` | Classical.choice, Quot.sound, propext |
| C10 | `Dbml.Props.C10_refs_as_written` | Classical.choice, Quot.sound, propext |
| C10 | `Dbml.Props.C10_inline_refs_as_written` | Classical.choice, Quot.sound, propext |
| C11 | `Dbml.Props.C11_column_types_raw` | Classical.choice, Quot.sound, propext |
| C11 | `Dbml.Props.C11_column_types_raw_checked` | Classical.choice, Quot.sound, propext |
| C12 | `Dbml.Props.C12_integer_literals` | Classical.choice, Quot.sound, propext |
| C12 | `Dbml.Props.C12_type_numbers` | Classical.choice, Quot.sound, propext |
| C13 | `Dbml.Props.C13_column_flags` | Classical.choice, Quot.sound, propext |
| C13 | `Dbml.Props.C13_column_items_in_order` | Classical.choice, Quot.sound, propext |
| C14 | `Dbml.Props.C14_index_flags` | Classical.choice, Quot.sound, propext |
| C14 | `Dbml.Props.C14_attributes_in_order` | Classical.choice, Quot.sound, propext |
| C15 | `Dbml.Props.C15_ref_actions` | Classical.choice, Quot.sound, propext |
| C15 | `Dbml.Props.C15_action_words` | propext |
| C15 | `Dbml.Props.C15_action_round_trip` | none |
| C15 | `Dbml.Props.C15_action_round_trip'` | propext |
| C16 | `Dbml.Props.C16_one_project` | Classical.choice, Quot.sound, propext |
| C17 | `Dbml.Props.C17_table_names` | Classical.choice, Quot.sound, propext |
| C18 | `Dbml.Props.C18_column_names` | Classical.choice, Quot.sound, propext |
| C19 | `Dbml.Props.C19_aliases` | Classical.choice, Quot.sound, propext |
| C20 | `Dbml.Props.C20_enums` | Classical.choice, Quot.sound, propext |
| C21 | `Dbml.Props.C21_groups` | Classical.choice, Quot.sound, propext |
| C21 | `Dbml.Props.C21_qualified_item_unchecked` | Quot.sound, propext |
| C22 | `Dbml.Props.C22_setting_keys` | Classical.choice, Quot.sound, propext |
| C22 | `Dbml.Props.C22_group_settings_unchecked` | Quot.sound, propext |
| C23 | `Dbml.Props.C23_primary_keys` | Classical.choice, Quot.sound, propext |
| C23 | `Dbml.Props.C23_two_expression_keys` | Quot.sound, propext |
| C24 | `Dbml.Props.C24_column_settings` | Classical.choice, Quot.sound, propext |
| C25 | `Dbml.Props.C25_indexes` | Classical.choice, Quot.sound, propext |
| C26 | `Dbml.Props.C26_no_redundant_index` | Classical.choice, Quot.sound, propext |
| C26 | `Dbml.Props.C26_expression_rejected` | propext |
| C27 | `Dbml.Props.C27_type_arguments` | Classical.choice, Quot.sound, propext |
| C28 | `Dbml.Props.C28_defaults_fit` | Classical.choice, Quot.sound, propext |
| C28 | `Dbml.Props.C28_bigint_max_rejected` | propext |
| C29 | `Dbml.Props.C29_enum_defaults` | Classical.choice, Quot.sound, propext |
| C29 | `Dbml.Props.C29_undeclared_type_accepted` | Quot.sound, propext |
| C30 | `Dbml.Props.C30_refs_resolve` | Classical.choice, Quot.sound, propext |
| C30 | `Dbml.Props.C30_enum_schema_ignored` | propext |
| C31 | `Dbml.Props.C31_single_key` | Classical.choice, Quot.sound, propext |
| C31 | `Dbml.Props.C31_composite_key` | Classical.choice, Quot.sound, propext |
| C31 | `Dbml.Props.C31_many2many_one_key` | propext |
| C32 | `Dbml.Props.C32_no_conflicts` | Classical.choice, Quot.sound, propext |
| C33 | `Dbml.Props.C33_accepts_iff_valid` | Classical.choice, Quot.sound, propext |
| C33 | `Dbml.Props.C33_analyze_iff_valid` | Classical.choice, Quot.sound, propext |
| C34 | `Dbml.Props.C34_order_irrelevant` | Classical.choice, Quot.sound, propext |
| C34 | `Dbml.Props.C34_reversed` | Classical.choice, Quot.sound, propext |
| C35 | `Dbml.Props.C35_errors_truthful` | Classical.choice, Quot.sound, propext |
| C35 | `Dbml.Props.C35_defect_rejected` | Quot.sound, propext |
| C35 | `Dbml.Props.C35_invalid_reported` | Classical.choice, Quot.sound, propext |
| C36 | `Dbml.Props.C36_alias_needs_schema` | Classical.choice, Quot.sound, propext |
| C36 | `Dbml.Props.C36_schema_as_written` | Classical.choice, Quot.sound, propext |
| C36 | `Dbml.Props.C36_witnesses` | propext |
| C37 | `Dbml.Props.C37_table_refs` | Quot.sound, propext |
| C37 | `Dbml.Props.C37_no_loss` | Quot.sound, propext |
| C37 | `Dbml.Props.C37_each_ref` | Classical.choice, Quot.sound, propext |
| C37 | `Dbml.Props.C37_totals` | Classical.choice, Quot.sound, propext |
| C38 | `Dbml.Props.C38_indexed_refs` | Quot.sound, propext |
| C39 | `Dbml.Props.C39_index` | Classical.choice, Quot.sound, propext |
| C39 | `Dbml.Props.C39_resolve` | Classical.choice, Quot.sound, propext |
| C39 | `Dbml.Props.C39_enum_values` | Classical.choice, Quot.sound, propext |
| C39 | `Dbml.Props.C39_table_fields` | Classical.choice, Quot.sound, propext |
| C39 | `Dbml.Props.C39_table_fields_error` | Classical.choice, Quot.sound, propext |
| C40 | `Dbml.Props.C40_literals` | Classical.choice, Quot.sound, propext |
| C40 | `Dbml.Props.C40_identifiers` | Classical.choice, Quot.sound, propext |
| C40 | `Dbml.Props.C40_leading_trivia_dropped` | propext |
| C41 | `Dbml.Props.C41_identifiers` | Classical.choice, Quot.sound, propext |
| C42 | `Dbml.Props.C42_leading_trivia` | Classical.choice, Quot.sound, propext |
| C42 | `Dbml.Props.C42_leading_accept` | Classical.choice, Quot.sound, propext |
| C42 | `Dbml.Props.C42_leading_trivia_checked` | Classical.choice, Quot.sound, propext |
| C42 | `Dbml.Props.C42_trailing_space` | Classical.choice, Quot.sound, propext |
| C42 | `Dbml.Props.C42_trailing_accept` | Classical.choice, Quot.sound, propext |
| C42 | `Dbml.Props.C42_trailing_space_checked` | Classical.choice, Quot.sound, propext |
| C43 | `Dbml.Props.C43_keywords_any_case` | Classical.choice, Quot.sound, propext |
| C44 | `Dbml.Props.C44_written_is_read` | Classical.choice, Quot.sound, propext |
| C44 | `Dbml.Props.C44_print_parse` | Classical.choice, Quot.sound, propext |
| C44 | `Dbml.Props.C44_layout_irrelevant` | Classical.choice, Quot.sound, propext |
| C44 | `Dbml.Props.C44_unambiguous` | Classical.choice, Quot.sound, propext |
| C45 | `Dbml.Props.C45_literal_words` | Classical.choice, Quot.sound, propext |
| C45 | `Dbml.Props.C45_longer_word_is_error` | Classical.choice, Quot.sound, propext |
| C46 | `Dbml.Props.C46_builtin_types` | Quot.sound, propext |
| C46 | `Dbml.Props.C46_never_placeholder` | propext |
| C47 | `Dbml.Props.C47_accessors` | propext |
| C47 | `Dbml.Props.C47_no_loss` | Quot.sound, propext |
| C48 | `Dbml.Props.C48_project` | Classical.choice, Quot.sound, propext |
| C49 | `Dbml.Props.C49_error_spans_valid` | Classical.choice, Quot.sound, propext |
| C49 | `Dbml.Props.C49_no_span_panic` | Classical.choice, Quot.sound, propext |
| C50 | `Dbml.Props.C50_column_types` | Classical.choice, Quot.sound, propext |
| C50 | `Dbml.Props.C50_qualified_not_builtin` | Quot.sound, propext |
| C51 | `Dbml.Props.C51_ast_denoted` | Classical.choice, Quot.sound, propext |
| C52 | `Dbml.Props.C52_checks_ignore_positions` | Classical.choice, Quot.sound, propext |
| C52 | `Dbml.Props.C52_verdict_of_document` | Classical.choice, Quot.sound, propext |
| C52 | `Dbml.Props.C52_layout_irrelevant` | Classical.choice, Quot.sound, propext |
| C52 | `Dbml.Props.C42_leading_trivia_checked` | Classical.choice, Quot.sound, propext |
| C53 | `Dbml.Props.C53_message_tells_kind` | propext |
| C53 | `Dbml.Props.C53_message_determines` | propext |
| C53 | `Dbml.Props.C53_messages_identify_errors` | Classical.choice, Quot.sound, propext |
| C53 | `Dbml.Props.C53_never_reported` | Classical.choice, Quot.sound, propext |
| C53 | `Dbml.Props.C53_texts` | Quot.sound, propext |
| C54 | `Dbml.Props.C54_decimal_literals` | Classical.choice, Quot.sound, propext |
| C54 | `Dbml.Props.C54_nearest_unique` | Classical.choice, Quot.sound, propext |
| C54 | `Dbml.Props.C54_nearest_exists` | Classical.choice, Quot.sound, propext |
| C54 | `Dbml.Props.C54_same_number` | Classical.choice, Quot.sound, propext |
| C55 | `Dbml.Props.C55_to_string` | Classical.choice, Quot.sound, propext |
| C55 | `Dbml.Props.C55_canonical` | Classical.choice, Quot.sound, propext |
| C55 | `Dbml.Props.C55_literals` | Classical.choice, Quot.sound, propext |
| C56 | `Dbml.Props.C56_same_result` | Quot.sound, propext |
| C56 | `Dbml.Props.C56_quadratic` | Classical.choice, Quot.sound, propext |
| C56 | `Dbml.Props.C56_polynomial` | Classical.choice, Quot.sound, propext |
| C56 | `Dbml.Props.C56_tight` | Classical.choice, Quot.sound, propext |
| C56 | `Dbml.Props.C56_tight_accepted` | Classical.choice, Quot.sound, propext |
| C56 | `Dbml.Props.C56_not_linear` | Classical.choice, Quot.sound, propext |
| C57 | `Dbml.Props.C57_language` | Classical.choice, Quot.sound, propext |
| C57 | `Dbml.Props.C57_rejected` | Classical.choice, Quot.sound, propext |
| C57 | `Dbml.Props.C57_ast` | Classical.choice, Quot.sound, propext |
| C57 | `Dbml.Props.C57_checked_language` | Classical.choice, Quot.sound, propext |
| C57 | `Dbml.Props.C57_normal_form` | Classical.choice, Quot.sound, propext |
| C58 | `Dbml.Props.C58_join` | Classical.choice, Quot.sound, propext |
| C58 | `Dbml.Props.C58_join_fails` | propext |
| C58 | `Dbml.Props.C58_cut` | Classical.choice, Quot.sound, propext |
| C59 | `Dbml.Props.C59_position_in_text` | Classical.choice, Quot.sound, propext |
| C59 | `Dbml.Props.C59_position_valid` | Classical.choice, Quot.sound, propext |
| C59 | `Dbml.Props.C59_good_prefix_not_blamed` | Classical.choice, Quot.sound, propext |
| C59 | `Dbml.Props.C59_comment_needed` | propext |
| C59 | `Dbml.Props.C59_leading_trivia` | Classical.choice, Quot.sound, propext |
| C60 | `Dbml.Props.C60_drop` | Classical.choice, Quot.sound, propext |
| C60 | `Dbml.Props.C60_drop_text` | Classical.choice, Quot.sound, propext |
| C60 | `Dbml.Props.C60_cut_out` | Classical.choice, Quot.sound, propext |
| C60 | `Dbml.Props.C60_notes_irrelevant` | Classical.choice, Quot.sound, propext |
| C60 | `Dbml.Props.C60_merge` | Classical.choice, Quot.sound, propext |
| C60 | `Dbml.Props.C60_merge_text` | Classical.choice, Quot.sound, propext |
| C60 | `Dbml.Props.C60_capture` | Quot.sound, propext |
| C61 | `Dbml.Props.C61_call_depth` | Quot.sound, propext |
| C61 | `Dbml.Props.C61_pair_depth` | Quot.sound, propext |
| C62 | `Dbml.Props.C62_line_col` | Quot.sound, propext |
| C62 | `Dbml.Props.C62_line_col_injective` | Quot.sound, propext |
| C62 | `Dbml.Props.C62_errors` | Classical.choice, Quot.sound, propext |
| C62 | `Dbml.Props.C62_lines_in_front` | Classical.choice, Quot.sound, propext |
| C62 | `Dbml.Props.C62_range` | Classical.choice, Quot.sound, propext |
| C62 | `Dbml.Props.C62_end` | Classical.choice, Quot.sound, propext |
| C62 | `Dbml.Props.C62_end_after_start` | Classical.choice, Quot.sound, propext |
| C63 | `Dbml.Props.C63_valid` | Quot.sound, propext |
| C63 | `Dbml.Props.C63_text` | Classical.choice, Quot.sound, propext |
| C64 | `Dbml.Props.C64_all_stages` | Quot.sound, propext |
| C64 | `Dbml.Props.C64_first_stage` | Classical.choice, Quot.sound, propext |
| C64 | `Dbml.Props.C64_error_tells` | Classical.choice, Quot.sound, propext |
| C64 | `Dbml.Props.C64_only_refs_left` | Classical.choice, Quot.sound, propext |
| C65 | `Dbml.Props.C65_expected` | Classical.choice, Quot.sound, propext |
| C65 | `Dbml.Props.C65_order` | Classical.choice, Quot.sound, propext |
| C65 | `Dbml.Props.C65_end_of_input` | Classical.choice, Quot.sound, propext |
| C65 | `Dbml.Props.C65_identifier` | Classical.choice, Quot.sound, propext |
| C65 | `Dbml.Props.C65_relation` | Classical.choice, Quot.sound, propext |
| C65 | `Dbml.Props.C65_integer` | Classical.choice, Quot.sound, propext |
| C65 | `Dbml.Props.C65_unknown_declaration` | Classical.choice, Quot.sound, propext |
| C65 | `Dbml.Props.C65_message` | Classical.choice, Quot.sound, propext |
| C65 | `Dbml.Props.C65_all_messages` | Classical.choice, Quot.sound, propext |
| C65 | `Dbml.Props.C65_start_of_text` | propext |
| C66 | `Dbml.Props.C66_add_column` | Classical.choice, Quot.sound, propext |
| C66 | `Dbml.Props.C66_drop_column` | Classical.choice, Quot.sound, propext |
| C66 | `Dbml.Props.C66_column_order` | Classical.choice, Quot.sound, propext |
| C66 | `Dbml.Props.C66_enum_values` | Classical.choice, Quot.sound, propext |
| C66 | `Dbml.Props.C66_add_ref` | Classical.choice, Quot.sound, propext |
| C66 | `Dbml.Props.C66_texts` | Classical.choice, Quot.sound, propext |
| C67 | `Dbml.Props.C67_accepted` | Classical.choice, Quot.sound, propext |
| C67 | `Dbml.Props.C67_error` | Classical.choice, Quot.sound, propext |
| C67 | `Dbml.Props.C67_crash` | Classical.choice, Quot.sound, propext |
| C67 | `Dbml.Props.C67_valid` | Classical.choice, Quot.sound, propext |
| C68 | `Dbml.Props.C68_truncated` | Classical.choice, Quot.sound, propext |
| C68 | `Dbml.Props.C68_declarations_kept` | Classical.choice, Quot.sound, propext |
| C68 | `Dbml.Props.C68_truncated_checked` | Classical.choice, Quot.sound, propext |
| C68 | `Dbml.Props.C68_ref_may_change` | Quot.sound, propext |
| C68 | `Dbml.Props.C68_note_may_change` | propext |
| C68 | `Dbml.Props.C68_comment_may_change` | propext |
| C69 | `Dbml.Props.C69_recode` | Classical.choice, Quot.sound, propext |
| C69 | `Dbml.Props.C69_line_ends` | Classical.choice, Quot.sound, propext |
| C69 | `Dbml.Props.C69_letters` | Classical.choice, Quot.sound, propext |
| C69 | `Dbml.Props.C69_checked` | Classical.choice, Quot.sound, propext |
| C70 | `Dbml.Props.C70_alike_valid` | Classical.choice, Quot.sound, propext |
| C70 | `Dbml.Props.C70_alike_accepted` | Classical.choice, Quot.sound, propext |
| C70 | `Dbml.Props.C70_symm` | Quot.sound, propext |
| C70 | `Dbml.Props.C70_refl` | Classical.choice, Quot.sound, propext |
| C70 | `Dbml.Props.C70_turn` | Classical.choice, Quot.sound, propext |
| C71 | `Dbml.Props.C71_ok` | Quot.sound, propext |
| C71 | `Dbml.Props.C71_valid` | Classical.choice, Quot.sound, propext |
| C71 | `Dbml.Props.C71_same_meaning` | Classical.choice, Quot.sound, propext |
| C71 | `Dbml.Props.C71_rewrite` | Classical.choice, Quot.sound, propext |
| C71 | `Dbml.Props.C71_rejected` | Classical.choice, Quot.sound, propext |
| C71 | `Dbml.Props.C71_index_order` | Quot.sound, propext |
| C71 | `Dbml.Props.C71_index_blocks` | Quot.sound, propext |
| C72 | `Dbml.Props.C72_add_enum` | Quot.sound, propext |
| C72 | `Dbml.Props.C72_drop_enum` | Classical.choice, Quot.sound, propext |
| C72 | `Dbml.Props.C72_add_group` | Quot.sound, propext |
| C72 | `Dbml.Props.C72_add_table` | Classical.choice, Quot.sound, propext |
| C72 | `Dbml.Props.C72_drop_table` | Classical.choice, Quot.sound, propext |
| C72 | `Dbml.Props.C72_add_index` | Classical.choice, Quot.sound, propext |
| C72 | `Dbml.Props.C72_drop_index` | Classical.choice, Quot.sound, propext |
| C72 | `Dbml.Props.C72_drop_index_unused` | Classical.choice, Quot.sound, propext |
| C72 | `Dbml.Props.C72_texts` | Classical.choice, Quot.sound, propext |
| C73 | `Dbml.Props.C73_stands` | Classical.choice, Quot.sound, propext |
| C73 | `Dbml.Props.C73_span` | Classical.choice, Quot.sound, propext |
| C73 | `Dbml.Props.C73_alone` | Classical.choice, Quot.sound, propext |
| C73 | `Dbml.Props.C73_cut` | Classical.choice, Quot.sound, propext |
| C73 | `Dbml.Props.C73_splice` | Classical.choice, Quot.sound, propext |
| C73 | `Dbml.Props.C73_delete` | Classical.choice, Quot.sound, propext |
| C73 | `Dbml.Props.C73_insert` | Classical.choice, Quot.sound, propext |
| C73 | `Dbml.Props.C73_splice_checked` | Classical.choice, Quot.sound, propext |
| C74 | `Dbml.Props.C74_print_reads` | Classical.choice, Quot.sound, propext |
| C74 | `Dbml.Props.C74_checked` | Classical.choice, Quot.sound, propext |
| C74 | `Dbml.Props.C74_idempotent` | Classical.choice, Quot.sound, propext |
| C74 | `Dbml.Props.C74_same_print` | Classical.choice, Quot.sound, propext |
| C74 | `Dbml.Props.C74_clean_of_text` | Classical.choice, Quot.sound, propext |
| C75 | `Dbml.Props.C75_wellformed` | Classical.choice, Quot.sound, propext |
| C75 | `Dbml.Props.C75_read_back` | Classical.choice, Quot.sound, propext |
| C75 | `Dbml.Props.C75_exact` | Classical.choice, Quot.sound, propext |
| C75 | `Dbml.Props.C75_checked` | Classical.choice, Quot.sound, propext |
| C75 | `Dbml.Props.C75_print_injective` | Classical.choice, Quot.sound, propext |
| C76 | `Dbml.Props.C76_display_never_panics` | Classical.choice, Quot.sound, propext |
| C76 | `Dbml.Props.C76_syntax` | Classical.choice, Quot.sound, propext |
| C76 | `Dbml.Props.C76_one_line` | Classical.choice, Quot.sound, propext |
| C76 | `Dbml.Props.C76_several_lines` | Classical.choice, Quot.sound, propext |
| C76 | `Dbml.Props.C76_marker_in_place` | Quot.sound, propext |
| C77 | `Dbml.Props.C77_rename` | Classical.choice, Quot.sound, propext |
| C77 | `Dbml.Props.C77_one` | Classical.choice, Quot.sound, propext |
| C77 | `Dbml.Props.C77_apart` | Classical.choice, Quot.sound, propext |
| C77 | `Dbml.Props.C77_by_role` | Classical.choice, Quot.sound, propext |
| C77 | `Dbml.Props.C77_checked` | Classical.choice, Quot.sound, propext |
| C77 | `Dbml.Props.C77_refactor` | Classical.choice, Quot.sound, propext |
| C77 | `Dbml.Props.C77_refactor_by_role` | Classical.choice, Quot.sound, propext |
| C78 | `Dbml.Props.C78_column_text` | Classical.choice, Quot.sound, propext |
| C78 | `Dbml.Props.C78_column_delete` | Classical.choice, Quot.sound, propext |
| C78 | `Dbml.Props.C78_column_replace` | Classical.choice, Quot.sound, propext |
| C78 | `Dbml.Props.C78_column_insert` | Classical.choice, Quot.sound, propext |
| C78 | `Dbml.Props.C78_index_text` | Classical.choice, Quot.sound, propext |
| C78 | `Dbml.Props.C78_index_delete` | Classical.choice, Quot.sound, propext |
| C78 | `Dbml.Props.C78_index_replace` | Classical.choice, Quot.sound, propext |
| C78 | `Dbml.Props.C78_index_insert` | Classical.choice, Quot.sound, propext |
| C78 | `Dbml.Props.C78_value_text` | Classical.choice, Quot.sound, propext |
| C78 | `Dbml.Props.C78_value_delete` | Classical.choice, Quot.sound, propext |
| C78 | `Dbml.Props.C78_value_replace` | Classical.choice, Quot.sound, propext |
| C78 | `Dbml.Props.C78_value_insert` | Classical.choice, Quot.sound, propext |
| C78 | `Dbml.Props.C78_member_text` | Classical.choice, Quot.sound, propext |
| C78 | `Dbml.Props.C78_member_delete` | Classical.choice, Quot.sound, propext |
| C78 | `Dbml.Props.C78_member_replace` | Classical.choice, Quot.sound, propext |
| C78 | `Dbml.Props.C78_member_insert` | Classical.choice, Quot.sound, propext |
| C78 | `Dbml.Props.C78_columns_between` | Classical.choice, Quot.sound, propext |
| C78 | `Dbml.Props.C78_values_between` | Classical.choice, Quot.sound, propext |
| C78 | `Dbml.Props.C78_members_between` | Classical.choice, Quot.sound, propext |
| C78 | `Dbml.Props.C78_indexes_between` | Classical.choice, Quot.sound, propext |
| C78 | `Dbml.Props.C78_drop_column` | Classical.choice, Quot.sound, propext |
| C78 | `Dbml.Props.C78_replace_value` | Classical.choice, Quot.sound, propext |
| C78 | `Dbml.Props.ReadsAs.checked` | Classical.choice, Quot.sound, propext |
| C79 | `Dbml.Props.C79_valid` | Quot.sound, propext |
| C79 | `Dbml.Props.C79_text` | Classical.choice, Quot.sound, propext |
| C79 | `Dbml.Props.C79_public` | Classical.choice, Quot.sound, propext |
| C79 | `Dbml.Props.ok_by` | Quot.sound, propext |
| C79 | `Dbml.Props.ok_dropPublic` | Quot.sound, propext |
| C80 | `Dbml.Props.C80_ast_size` | Classical.choice, Quot.sound, propext |
| C80 | `Dbml.Props.C80_checked` | Classical.choice, Quot.sound, propext |
| C80 | `Dbml.Props.C80_at_least` | Classical.choice, Quot.sound, propext |
| C80 | `Dbml.Props.C80_shown_length` | Classical.choice, Quot.sound, propext |
| C81 | `Dbml.Props.C81_viable` | Classical.choice, Quot.sound, propext |
| C81 | `Dbml.Props.C81_viable_beginning` | Classical.choice, Quot.sound, propext |
| C81 | `Dbml.Props.C81_dead_end` | Classical.choice, Quot.sound, propext |
| C81 | `Dbml.Props.C81_unfinished` | Classical.choice, Quot.sound, propext |
| C81 | `Dbml.Props.C81_not_latest` | propext |
| C82 | `Dbml.Props.C82_fits` | Classical.choice, Quot.sound, propext |
| C82 | `Dbml.Props.C82_end` | Classical.choice, Quot.sound, propext |
| C82 | `Dbml.Props.C82_schema` | Classical.choice, Quot.sound, propext |
| C82 | `Dbml.Props.sample_ok` | Classical.choice, Quot.sound, propext |
| C82 | `Dbml.Props.C82_gap_needed` | propext |
| C82 | `Dbml.Props.C82_not_all` | propext |
| C83 | `Dbml.Props.C83_same_result` | Quot.sound, propext |
| C83 | `Dbml.Props.C83_quadratic` | Classical.choice, Quot.sound, propext |
| C83 | `Dbml.Props.C83_text` | Classical.choice, Quot.sound, propext |
| C83 | `Dbml.Props.C83_at_least` | Quot.sound, propext |
| C84 | `Dbml.Props.C84_same_report` | Classical.choice, Quot.sound, propext |
| C84 | `Dbml.Props.C84_schemas` | Classical.choice, Quot.sound, propext |
| C85 | `Dbml.Props.C85_only_missing` | Classical.choice, Quot.sound, propext |
| C85 | `Dbml.Props.C85_no_repair` | Classical.choice, Quot.sound, propext |
| C85 | `Dbml.Props.C85_no_crash_repair` | Classical.choice, Quot.sound, propext |
| C86 | `Dbml.Props.C86_pairs` | Classical.choice, Quot.sound, propext |
| C87 | `Dbml.Props.C87_debug` | Classical.choice, Quot.sound, propext |
| C87 | `Dbml.Props.C87_texts` | Classical.choice, Quot.sound, propext |
| C87 | `Dbml.Props.C87_table` | Classical.choice, Quot.sound, propext |
| C87 | `Dbml.Props.C87_double` | Classical.choice, Quot.sound, propext |
| C87 | `Dbml.Props.C87_exponent` | Classical.choice, Quot.sound, propext |
| C87 | `Dbml.Props.C87_point` | propext |
| C87 | `Dbml.Props.C87_canonical` | Classical.choice, Quot.sound, propext |
| C88 | `Dbml.Props.C88_report_stays` | Classical.choice, Quot.sound, propext |
| C88 | `Dbml.Props.C88_same_place` | Classical.choice, Quot.sound, propext |
| C88 | `Dbml.Props.C88_joined` | Classical.choice, Quot.sound, propext |
