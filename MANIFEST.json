{
 "claims": [
  {
   "property": "C01",
   "status": "proved",
   "theorems": [
    "Dbml.Props.C01_parse_never_panics"
   ],
   "note": ""
  },
  {
   "property": "C02",
   "status": "proved",
   "theorems": [
    "Dbml.Props.C02_parse_terminates"
   ],
   "note": "No repetition of the modelled grammar can loop; for the depth of calls see C61."
  },
  {
   "property": "C03",
   "status": "proved",
   "theorems": [
    "Dbml.Props.C03_parse_errors",
    "Dbml.Props.C03_no_internal_errors"
   ],
   "note": ""
  },
  {
   "property": "C04",
   "status": "proved",
   "theorems": [
    "Dbml.Props.C04_panics_iff",
    "Dbml.Props.C04_only_panic",
    "Dbml.Props.C04_no_panic",
    "Dbml.Props.C04_panic_reachable",
    "Dbml.Props.C04_terminates"
   ],
   "note": ""
  },
  {
   "property": "C05",
   "status": "proved",
   "theorems": [
    "Dbml.Props.C05_checked_is_unchecked",
    "Dbml.Props.C05_same_ast",
    "Dbml.Props.C05_same_error"
   ],
   "note": ""
  },
  {
   "property": "C06",
   "status": "proved",
   "theorems": [
    "Dbml.Props.C06_spans_valid"
   ],
   "note": ""
  },
  {
   "property": "C07",
   "status": "proved",
   "theorems": [
    "Dbml.Props.C07_raw_is_source",
    "Dbml.Props.C07_raw_fields"
   ],
   "note": ""
  },
  {
   "property": "C08",
   "status": "proved",
   "theorems": [
    "Dbml.Props.C08_blocks_in_order"
   ],
   "note": ""
  },
  {
   "property": "C09",
   "status": "proved",
   "theorems": [
    "Dbml.Props.C09_children_inside"
   ],
   "note": "The span of a ref block is that of its statement (its name lies outside it) and the span of a table identifier excludes the alias; Spec/Spans.lean says exactly which node owns which."
  },
  {
   "property": "C10",
   "status": "proved",
   "theorems": [
    "Dbml.Props.C10_refs_as_written",
    "Dbml.Props.C10_inline_refs_as_written"
   ],
   "note": ""
  },
  {
   "property": "C11",
   "status": "proved",
   "theorems": [
    "Dbml.Props.C11_column_types_raw",
    "Dbml.Props.C11_column_types_raw_checked"
   ],
   "note": ""
  },
  {
   "property": "C12",
   "status": "proved",
   "theorems": [
    "Dbml.Props.C12_integer_literals",
    "Dbml.Props.C12_type_numbers"
   ],
   "note": ""
  },
  {
   "property": "C13",
   "status": "proved",
   "theorems": [
    "Dbml.Props.C13_column_flags",
    "Dbml.Props.C13_column_items_in_order"
   ],
   "note": ""
  },
  {
   "property": "C14",
   "status": "proved",
   "theorems": [
    "Dbml.Props.C14_index_flags",
    "Dbml.Props.C14_attributes_in_order"
   ],
   "note": ""
  },
  {
   "property": "C15",
   "status": "proved",
   "theorems": [
    "Dbml.Props.C15_ref_actions",
    "Dbml.Props.C15_action_words",
    "Dbml.Props.C15_action_round_trip",
    "Dbml.Props.C15_action_round_trip'"
   ],
   "note": ""
  },
  {
   "property": "C16",
   "status": "proved",
   "theorems": [
    "Dbml.Props.C16_one_project"
   ],
   "note": ""
  },
  {
   "property": "C17",
   "status": "proved",
   "theorems": [
    "Dbml.Props.C17_table_names"
   ],
   "note": ""
  },
  {
   "property": "C18",
   "status": "proved",
   "theorems": [
    "Dbml.Props.C18_column_names"
   ],
   "note": ""
  },
  {
   "property": "C19",
   "status": "proved",
   "theorems": [
    "Dbml.Props.C19_aliases"
   ],
   "note": ""
  },
  {
   "property": "C20",
   "status": "proved",
   "theorems": [
    "Dbml.Props.C20_enums"
   ],
   "note": ""
  },
  {
   "property": "C21",
   "status": "proved",
   "theorems": [
    "Dbml.Props.C21_groups",
    "Dbml.Props.C21_qualified_item_unchecked"
   ],
   "note": "The stronger claim (qualified items exist) is refuted by the second theorem."
  },
  {
   "property": "C22",
   "status": "proved",
   "theorems": [
    "Dbml.Props.C22_setting_keys",
    "Dbml.Props.C22_group_settings_unchecked"
   ],
   "note": "The stronger claim (table-group settings too) is refuted by the second theorem."
  },
  {
   "property": "C23",
   "status": "proved",
   "theorems": [
    "Dbml.Props.C23_primary_keys",
    "Dbml.Props.C23_two_expression_keys"
   ],
   "note": "The stronger claim is refuted by the second theorem."
  },
  {
   "property": "C24",
   "status": "proved",
   "theorems": [
    "Dbml.Props.C24_column_settings"
   ],
   "note": ""
  },
  {
   "property": "C25",
   "status": "proved",
   "theorems": [
    "Dbml.Props.C25_indexes"
   ],
   "note": ""
  },
  {
   "property": "C26",
   "status": "proved",
   "theorems": [
    "Dbml.Props.C26_no_redundant_index",
    "Dbml.Props.C26_expression_rejected"
   ],
   "note": ""
  },
  {
   "property": "C27",
   "status": "proved",
   "theorems": [
    "Dbml.Props.C27_type_arguments"
   ],
   "note": ""
  },
  {
   "property": "C28",
   "status": "proved",
   "theorems": [
    "Dbml.Props.C28_defaults_fit",
    "Dbml.Props.C28_bigint_max_rejected"
   ],
   "note": ""
  },
  {
   "property": "C29",
   "status": "proved",
   "theorems": [
    "Dbml.Props.C29_enum_defaults",
    "Dbml.Props.C29_undeclared_type_accepted"
   ],
   "note": ""
  },
  {
   "property": "C30",
   "status": "proved",
   "theorems": [
    "Dbml.Props.C30_refs_resolve",
    "Dbml.Props.C30_enum_schema_ignored"
   ],
   "note": ""
  },
  {
   "property": "C31",
   "status": "proved",
   "theorems": [
    "Dbml.Props.C31_single_key",
    "Dbml.Props.C31_composite_key",
    "Dbml.Props.C31_many2many_one_key"
   ],
   "note": ""
  },
  {
   "property": "C32",
   "status": "proved",
   "theorems": [
    "Dbml.Props.C32_no_conflicts"
   ],
   "note": ""
  },
  {
   "property": "C33",
   "status": "proved",
   "theorems": [
    "Dbml.Props.C33_accepts_iff_valid",
    "Dbml.Props.C33_analyze_iff_valid"
   ],
   "note": ""
  },
  {
   "property": "C34",
   "status": "proved",
   "theorems": [
    "Dbml.Props.C34_order_irrelevant",
    "Dbml.Props.C34_reversed"
   ],
   "note": ""
  },
  {
   "property": "C35",
   "status": "proved",
   "theorems": [
    "Dbml.Props.C35_errors_truthful",
    "Dbml.Props.C35_defect_rejected",
    "Dbml.Props.C35_invalid_reported"
   ],
   "note": ""
  },
  {
   "property": "C36",
   "status": "proved",
   "theorems": [
    "Dbml.Props.C36_alias_needs_schema",
    "Dbml.Props.C36_schema_as_written",
    "Dbml.Props.C36_witnesses"
   ],
   "note": ""
  },
  {
   "property": "C37",
   "status": "proved",
   "theorems": [
    "Dbml.Props.C37_table_refs",
    "Dbml.Props.C37_no_loss",
    "Dbml.Props.C37_each_ref",
    "Dbml.Props.C37_totals"
   ],
   "note": ""
  },
  {
   "property": "C38",
   "status": "proved",
   "theorems": [
    "Dbml.Props.C38_indexed_refs"
   ],
   "note": ""
  },
  {
   "property": "C39",
   "status": "proved",
   "theorems": [
    "Dbml.Props.C39_index",
    "Dbml.Props.C39_resolve",
    "Dbml.Props.C39_enum_values",
    "Dbml.Props.C39_table_fields",
    "Dbml.Props.C39_table_fields_error"
   ],
   "note": ""
  },
  {
   "property": "C40",
   "status": "proved",
   "theorems": [
    "Dbml.Props.C40_literals",
    "Dbml.Props.C40_identifiers",
    "Dbml.Props.C40_leading_trivia_dropped"
   ],
   "note": "Spec (Content, delimOf) in Props/Quoted.lean; the stronger claim is refuted by the third theorem."
  },
  {
   "property": "C41",
   "status": "proved",
   "theorems": [
    "Dbml.Props.C41_identifiers"
   ],
   "note": ""
  },
  {
   "property": "C42",
   "status": "proved",
   "theorems": [
    "Dbml.Props.C42_leading_trivia",
    "Dbml.Props.C42_leading_accept",
    "Dbml.Props.C42_leading_trivia_checked",
    "Dbml.Props.C42_trailing_space",
    "Dbml.Props.C42_trailing_accept",
    "Dbml.Props.C42_trailing_space_checked"
   ],
   "note": "Every text, every white space and (in front) comments; both for parse_dbml_unchecked and parse_dbml."
  },
  {
   "property": "C43",
   "status": "proved",
   "theorems": [
    "Dbml.Props.C43_keywords_any_case"
   ],
   "note": "Documents and layouts as described in Spec/Source.lean; equality up to positions (mapSpan noPos)."
  },
  {
   "property": "C44",
   "status": "proved",
   "theorems": [
    "Dbml.Props.C44_written_is_read",
    "Dbml.Props.C44_print_parse",
    "Dbml.Props.C44_layout_irrelevant",
    "Dbml.Props.C44_unambiguous"
   ],
   "note": "Documents described construct by construct in Spec/Source.lean, any layout; equality up to positions (mapSpan noPos)."
  },
  {
   "property": "C45",
   "status": "proved",
   "theorems": [
    "Dbml.Props.C45_literal_words",
    "Dbml.Props.C45_longer_word_is_error"
   ],
   "note": "Any accepted text for the first; the second for every document prefix, table, column, earlier settings, remainder and layout."
  },
  {
   "property": "C46",
   "status": "proved",
   "theorems": [
    "Dbml.Props.C46_builtin_types",
    "Dbml.Props.C46_never_placeholder"
   ],
   "note": ""
  },
  {
   "property": "C47",
   "status": "proved",
   "theorems": [
    "Dbml.Props.C47_accessors",
    "Dbml.Props.C47_no_loss"
   ],
   "note": ""
  },
  {
   "property": "C48",
   "status": "proved",
   "theorems": [
    "Dbml.Props.C48_project"
   ],
   "note": ""
  },
  {
   "property": "C49",
   "status": "proved",
   "theorems": [
    "Dbml.Props.C49_error_spans_valid",
    "Dbml.Props.C49_no_span_panic"
   ],
   "note": ""
  },
  {
   "property": "C50",
   "status": "proved",
   "theorems": [
    "Dbml.Props.C50_column_types",
    "Dbml.Props.C50_qualified_not_builtin"
   ],
   "note": ""
  },
  {
   "property": "C51",
   "status": "proved",
   "theorems": [
    "Dbml.Props.C51_ast_denoted"
   ],
   "note": ""
  },
  {
   "property": "C52",
   "status": "proved",
   "theorems": [
    "Dbml.Props.C52_checks_ignore_positions",
    "Dbml.Props.C52_verdict_of_document",
    "Dbml.Props.C52_layout_irrelevant",
    "Dbml.Props.C42_leading_trivia_checked"
   ],
   "note": ""
  },
  {
   "property": "C53",
   "status": "proved",
   "theorems": [
    "Dbml.Props.C53_message_tells_kind",
    "Dbml.Props.C53_message_determines",
    "Dbml.Props.C53_messages_identify_errors",
    "Dbml.Props.C53_never_reported",
    "Dbml.Props.C53_texts"
   ],
   "note": "messages of syntax errors (produced by pest) are in C65; different semantic errors that quote texts may have equal messages (example in Props/Messages.lean)"
  },
  {
   "property": "C54",
   "status": "proved",
   "theorems": [
    "Dbml.Props.C54_decimal_literals",
    "Dbml.Props.C54_nearest_unique",
    "Dbml.Props.C54_nearest_exists",
    "Dbml.Props.C54_same_number"
   ],
   "note": "str::parse::<f64> of the Rust standard library is modelled as correctly rounded; the theorem says the modelled algorithm is"
  },
  {
   "property": "C55",
   "status": "proved",
   "theorems": [
    "Dbml.Props.C55_to_string",
    "Dbml.Props.C55_canonical",
    "Dbml.Props.C55_literals"
   ],
   "note": "Display of f64 is modelled (shortest digits that read back, nearest of these); the theorem says the modelled algorithm has this property"
  },
  {
   "property": "C56",
   "status": "proved",
   "theorems": [
    "Dbml.Props.C56_same_result",
    "Dbml.Props.C56_quadratic",
    "Dbml.Props.C56_polynomial",
    "Dbml.Props.C56_tight",
    "Dbml.Props.C56_tight_accepted",
    "Dbml.Props.C56_not_linear"
   ],
   "note": "upper bound 82977267590*(n+1)^2 by amortised analysis of the grammar (and a crude one of degree 6 with a small constant); lower bound n^2 on accepted texts of 4n+8 characters; steps = evaluations of parsing expressions, rounds of repetitions, characters of literals compared, as counted by the instrumented interpreter (Model/Cost.lean); a model of pest's work up to a constant factor"
  },
  {
   "property": "C57",
   "status": "proved",
   "theorems": [
    "Dbml.Props.C57_language",
    "Dbml.Props.C57_rejected",
    "Dbml.Props.C57_ast",
    "Dbml.Props.C57_checked_language",
    "Dbml.Props.C57_normal_form"
   ],
   "note": ""
  },
  {
   "property": "C58",
   "status": "proved",
   "theorems": [
    "Dbml.Props.C58_join",
    "Dbml.Props.C58_join_fails",
    "Dbml.Props.C58_cut"
   ],
   "note": ""
  },
  {
   "property": "C59",
   "status": "proved",
   "theorems": [
    "Dbml.Props.C59_position_in_text",
    "Dbml.Props.C59_position_valid",
    "Dbml.Props.C59_good_prefix_not_blamed",
    "Dbml.Props.C59_comment_needed",
    "Dbml.Props.C59_leading_trivia"
   ],
   "note": "the offset is pest 2.7's attempt_pos, modelled in Model/ErrorPos.lean"
  },
  {
   "property": "C60",
   "status": "proved",
   "theorems": [
    "Dbml.Props.C60_drop",
    "Dbml.Props.C60_drop_text",
    "Dbml.Props.C60_cut_out",
    "Dbml.Props.C60_notes_irrelevant",
    "Dbml.Props.C60_merge",
    "Dbml.Props.C60_merge_text",
    "Dbml.Props.C60_capture"
   ],
   "note": ""
  },
  {
   "property": "C61",
   "status": "proved",
   "theorems": [
    "Dbml.Props.C61_call_depth",
    "Dbml.Props.C61_pair_depth"
   ],
   "note": "nesting of evaluations as modelled in Model/Depth.lean: a model of stack depth up to a constant number of frames per expression"
  },
  {
   "property": "C62",
   "status": "proved",
   "theorems": [
    "Dbml.Props.C62_line_col",
    "Dbml.Props.C62_line_col_injective",
    "Dbml.Props.C62_errors",
    "Dbml.Props.C62_lines_in_front",
    "Dbml.Props.C62_range",
    "Dbml.Props.C62_end",
    "Dbml.Props.C62_end_after_start"
   ],
   "note": "Position::line_col and Error::new_from_span of pest 2.7, modelled in Model/LineCol.lean; the rendering of the source line is not modelled"
  },
  {
   "property": "C63",
   "status": "proved",
   "theorems": [
    "Dbml.Props.C63_valid",
    "Dbml.Props.C63_text"
   ],
   "note": "Spec/Core.lean says what the core is; names of enums and enum values are kept, since type names and defaults are texts"
  },
  {
   "property": "C64",
   "status": "proved",
   "theorems": [
    "Dbml.Props.C64_all_stages",
    "Dbml.Props.C64_first_stage",
    "Dbml.Props.C64_error_tells",
    "Dbml.Props.C64_only_refs_left"
   ],
   "note": "Spec/Stages.lean lists the stages, their rules and their kinds of errors; the order inside a stage is C67"
  },
  {
   "property": "C65",
   "status": "proved",
   "theorems": [
    "Dbml.Props.C65_expected",
    "Dbml.Props.C65_order",
    "Dbml.Props.C65_end_of_input",
    "Dbml.Props.C65_identifier",
    "Dbml.Props.C65_relation",
    "Dbml.Props.C65_integer",
    "Dbml.Props.C65_unknown_declaration",
    "Dbml.Props.C65_message",
    "Dbml.Props.C65_all_messages",
    "Dbml.Props.C65_start_of_text"
   ],
   "note": "pos_attempts of pest 2.7, modelled in Model/Expected.lean; the rendering of the source line is not modelled"
  },
  {
   "property": "C66",
   "status": "proved",
   "theorems": [
    "Dbml.Props.C66_add_column",
    "Dbml.Props.C66_drop_column",
    "Dbml.Props.C66_column_order",
    "Dbml.Props.C66_enum_values",
    "Dbml.Props.C66_add_ref",
    "Dbml.Props.C66_texts"
   ],
   "note": "C66_texts transfers the conditions to accepted texts"
  },
  {
   "property": "C67",
   "status": "proved",
   "theorems": [
    "Dbml.Props.C67_accepted",
    "Dbml.Props.C67_error",
    "Dbml.Props.C67_crash",
    "Dbml.Props.C67_valid"
   ],
   "note": "Spec/Checklist.lean is the checklist: rules of Spec/Valid.lean in order, with the error and span of each"
  },
  {
   "property": "C68",
   "status": "proved",
   "theorems": [
    "Dbml.Props.C68_truncated",
    "Dbml.Props.C68_declarations_kept",
    "Dbml.Props.C68_truncated_checked",
    "Dbml.Props.C68_ref_may_change",
    "Dbml.Props.C68_note_may_change",
    "Dbml.Props.C68_comment_may_change"
   ],
   "note": "Spec/Truncate.lean says what a cut-off declaration may have been"
  },
  {
   "property": "C69",
   "status": "proved",
   "theorems": [
    "Dbml.Props.C69_recode",
    "Dbml.Props.C69_line_ends",
    "Dbml.Props.C69_letters",
    "Dbml.Props.C69_checked"
   ],
   "note": "Spec/Recode.lean says what is replaced; the equivalence is for texts with one kind of line end"
  },
  {
   "property": "C70",
   "status": "proved",
   "theorems": [
    "Dbml.Props.C70_alike_valid",
    "Dbml.Props.C70_alike_accepted",
    "Dbml.Props.C70_symm",
    "Dbml.Props.C70_refl",
    "Dbml.Props.C70_turn"
   ],
   "note": "Spec/Alike.lean says what it means to say the same"
  },
  {
   "property": "C71",
   "status": "proved",
   "theorems": [
    "Dbml.Props.C71_ok",
    "Dbml.Props.C71_valid",
    "Dbml.Props.C71_same_meaning",
    "Dbml.Props.C71_rewrite",
    "Dbml.Props.C71_rejected",
    "Dbml.Props.C71_index_order",
    "Dbml.Props.C71_index_blocks"
   ],
   "note": "Spec/Rewrite.lean lists the steps"
  },
  {
   "property": "C72",
   "status": "proved",
   "theorems": [
    "Dbml.Props.C72_add_enum",
    "Dbml.Props.C72_drop_enum",
    "Dbml.Props.C72_add_group",
    "Dbml.Props.C72_add_table",
    "Dbml.Props.C72_drop_table",
    "Dbml.Props.C72_add_index",
    "Dbml.Props.C72_drop_index",
    "Dbml.Props.C72_drop_index_unused",
    "Dbml.Props.C72_texts"
   ],
   "note": "C72_texts transfers the conditions to accepted texts; tables whose alias captures a name in use are excluded by hypothesis (C60_capture shows why)"
  },
  {
   "property": "C73",
   "status": "proved",
   "theorems": [
    "Dbml.Props.C73_stands",
    "Dbml.Props.C73_span",
    "Dbml.Props.C73_alone",
    "Dbml.Props.C73_cut",
    "Dbml.Props.C73_splice",
    "Dbml.Props.C73_delete",
    "Dbml.Props.C73_insert",
    "Dbml.Props.C73_splice_checked"
   ],
   "note": "BlockD (Spec/Syntax.lean) says what a declaration at a piece of the text is"
  },
  {
   "property": "C74",
   "status": "proved",
   "theorems": [
    "Dbml.Props.C74_print_reads",
    "Dbml.Props.C74_checked",
    "Dbml.Props.C74_idempotent",
    "Dbml.Props.C74_same_print",
    "Dbml.Props.C74_clean_of_text"
   ],
   "note": "the printer is Spec/Print.lean; an example shows why the AST must not contain /*"
  },
  {
   "property": "C75",
   "status": "proved",
   "theorems": [
    "Dbml.Props.C75_wellformed",
    "Dbml.Props.C75_read_back",
    "Dbml.Props.C75_exact",
    "Dbml.Props.C75_checked",
    "Dbml.Props.C75_print_injective"
   ],
   "note": "Spec/Shape.lean defines the well-formed ASTs; the condition on /* is needed, see C74"
  },
  {
   "property": "C76",
   "status": "proved",
   "theorems": [
    "Dbml.Props.C76_display_never_panics",
    "Dbml.Props.C76_syntax",
    "Dbml.Props.C76_one_line",
    "Dbml.Props.C76_several_lines",
    "Dbml.Props.C76_marker_in_place"
   ],
   "note": "Spec/Render.lean defines the pictures; Model/Render.lean models Error::format of pest 2.7"
  },
  {
   "property": "C77",
   "status": "proved",
   "theorems": [
    "Dbml.Props.C77_rename",
    "Dbml.Props.C77_one",
    "Dbml.Props.C77_apart",
    "Dbml.Props.C77_by_role",
    "Dbml.Props.C77_checked",
    "Dbml.Props.C77_refactor",
    "Dbml.Props.C77_refactor_by_role"
   ],
   "note": "Spec/Rename.lean defines the names of an AST and the edits; a quoted name is not replaced by a word (counterexample beside the theorems); enum names in column types and defaults are no identifiers of the AST, so enums are not covered by C77_refactor"
  },
  {
   "property": "C78",
   "status": "proved",
   "theorems": [
    "Dbml.Props.C78_column_text",
    "Dbml.Props.C78_column_delete",
    "Dbml.Props.C78_column_replace",
    "Dbml.Props.C78_column_insert",
    "Dbml.Props.C78_index_text",
    "Dbml.Props.C78_index_delete",
    "Dbml.Props.C78_index_replace",
    "Dbml.Props.C78_index_insert",
    "Dbml.Props.C78_value_text",
    "Dbml.Props.C78_value_delete",
    "Dbml.Props.C78_value_replace",
    "Dbml.Props.C78_value_insert",
    "Dbml.Props.C78_member_text",
    "Dbml.Props.C78_member_delete",
    "Dbml.Props.C78_member_replace",
    "Dbml.Props.C78_member_insert",
    "Dbml.Props.C78_columns_between",
    "Dbml.Props.C78_values_between",
    "Dbml.Props.C78_members_between",
    "Dbml.Props.C78_indexes_between",
    "Dbml.Props.C78_drop_column",
    "Dbml.Props.C78_replace_value",
    "Dbml.Props.ReadsAs.checked"
   ],
   "note": "ColumnsText etc. (Spec/Members.lean) say what a text that declares members is; for indexes C78_indexes_between is one direction only, since a second Indexes block replaces the first in the AST"
  },
  {
   "property": "C79",
   "status": "proved",
   "theorems": [
    "Dbml.Props.C79_valid",
    "Dbml.Props.C79_text",
    "Dbml.Props.C79_public",
    "Dbml.Props.ok_by",
    "Dbml.Props.ok_dropPublic"
   ],
   "note": "Spec/EnumNames.lean defines the renamed schema; ok_by gives the renaming of types from one of names"
  },
  {
   "property": "C80",
   "status": "proved",
   "theorems": [
    "Dbml.Props.C80_ast_size",
    "Dbml.Props.C80_checked",
    "Dbml.Props.C80_at_least",
    "Dbml.Props.C80_shown_length"
   ],
   "note": "Spec/Size.lean counts records and stored characters; allocator overhead and Vec capacity are not modelled; the tree of pairs that pest builds in between is bounded by C86"
  },
  {
   "property": "C81",
   "status": "proved",
   "theorems": [
    "Dbml.Props.C81_viable",
    "Dbml.Props.C81_viable_beginning",
    "Dbml.Props.C81_dead_end",
    "Dbml.Props.C81_unfinished",
    "Dbml.Props.C81_not_latest"
   ],
   "note": "Structural completeness proof over the whole grammar (Proofs/Viable1-13): for every construct, what was read is read again in front of a fitting continuation, and every place where a rule was tried can be completed. A completed text may still be rejected for other reasons (an integer literal that is too large; shown by an example)."
  },
  {
   "property": "C82",
   "status": "proved",
   "theorems": [
    "Dbml.Props.C82_fits",
    "Dbml.Props.C82_end",
    "Dbml.Props.C82_schema",
    "Dbml.Props.sample_ok",
    "Dbml.Props.C82_gap_needed",
    "Dbml.Props.C82_not_all"
   ],
   "note": "Spec.sample (Spec/Expected.lean) gives one example for each rule, sample_ok shows that the rule matches all of it; the sample of a rule is fixed, so the theorem speaks of that example, not of every text of the rule"
  },
  {
   "property": "C83",
   "status": "proved",
   "theorems": [
    "Dbml.Props.C83_same_result",
    "Dbml.Props.C83_quadratic",
    "Dbml.Props.C83_text",
    "Dbml.Props.C83_at_least"
   ],
   "note": "steps are counted by an instrumented copy of the analysis (Model/CheckCost.lean) that C83_same_result ties to the modelled analysis; string comparisons count one, BTreeMap operations count the height of the tree (log2 n + 1 nodes, a fact about the standard library that is assumed), the memory allocator and the work of pest errors beyond the text length are not counted"
  },
  {
   "property": "C84",
   "status": "proved",
   "theorems": [
    "Dbml.Props.C84_same_report",
    "Dbml.Props.C84_schemas"
   ],
   "note": "Spec/Core.lean defines the core and the renamings, Spec/Kinds.lean when two reports are the same; enums and their schemas are not renamed, so a renaming of schemas can turn a missing table into a missing schema (example beside the theorems): C84_schemas merges these kinds"
  },
  {
   "property": "C85",
   "status": "proved",
   "theorems": [
    "Dbml.Props.C85_only_missing",
    "Dbml.Props.C85_no_repair",
    "Dbml.Props.C85_no_crash_repair"
   ],
   "note": "Spec/Repair.lean says what adding is (up to the core, so positions, notes and quotes may differ) and which errors say that something is missing; examples show that each of the four can be repaired and that an alias can repair another"
  },
  {
   "property": "C86",
   "status": "proved",
   "theorems": [
    "Dbml.Props.C86_pairs"
   ],
   "note": "the number of nodes of the tree that the walk receives; what pest keeps while it backtracks is not modelled"
  },
  {
   "property": "C87",
   "status": "proved",
   "theorems": [
    "Dbml.Props.C87_debug",
    "Dbml.Props.C87_texts",
    "Dbml.Props.C87_table",
    "Dbml.Props.C87_double",
    "Dbml.Props.C87_exponent",
    "Dbml.Props.C87_point",
    "Dbml.Props.C87_canonical"
   ],
   "note": "Model/Debug.lean is what derive(Debug) writes in the alternate mode; which characters other than those with a one-letter escape are shown as they are depends on the Unicode tables of the compiler and is a parameter over which the theorems range; Canonical only excludes pairs (m, e) of the model that are not the normal form of a double (an example shows that it is needed in the model)"
  },
  {
   "property": "C88",
   "status": "proved",
   "theorems": [
    "Dbml.Props.C88_report_stays",
    "Dbml.Props.C88_same_place",
    "Dbml.Props.C88_joined"
   ],
   "note": "Spec/Appended.lean says which kinds come later; stages as in C64 (Spec/Stages.lean). C88_report_stays compares up to the core, so notes, places and quotes of what was there may change as well; examples show that a declaration of an earlier kind, and a ref after a ref, can change the report"
  }
 ]
}