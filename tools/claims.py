c('C01','proved','C01_parse_never_panics')
c('C02','proved','C02_parse_terminates','No repetition of the modelled grammar can loop; for the depth of calls see C61.')
c('C03','proved','C03_parse_errors C03_no_internal_errors')
c('C04','proved','C04_panics_iff C04_only_panic C04_no_panic C04_panic_reachable C04_terminates')
c('C05','proved','C05_checked_is_unchecked C05_same_ast C05_same_error')
c('C06','proved','C06_spans_valid')
c('C07','proved','C07_raw_is_source C07_raw_fields')
c('C08','proved','C08_blocks_in_order')
c('C09','proved','C09_children_inside','The span of a ref block is that of its statement (its name lies outside it) and the span of a table identifier excludes the alias; Spec/Spans.lean says exactly which node owns which.')
c('C10','proved','C10_refs_as_written C10_inline_refs_as_written')
c('C11','proved','C11_column_types_raw C11_column_types_raw_checked')
c('C12','proved','C12_integer_literals C12_type_numbers')
c('C13','proved','C13_column_flags C13_column_items_in_order')
c('C14','proved','C14_index_flags C14_attributes_in_order')
c('C15','proved','C15_ref_actions C15_action_words C15_action_round_trip C15_action_round_trip\'')
c('C16','proved','C16_one_project')
c('C17','proved','C17_table_names')
c('C18','proved','C18_column_names')
c('C19','proved','C19_aliases')
c('C20','proved','C20_enums')
c('C21','proved','C21_groups C21_qualified_item_unchecked','The stronger claim (qualified items exist) is refuted by the second theorem.')
c('C22','proved','C22_setting_keys C22_group_settings_unchecked','The stronger claim (table-group settings too) is refuted by the second theorem.')
c('C23','proved','C23_primary_keys C23_two_expression_keys','The stronger claim is refuted by the second theorem.')
c('C24','proved','C24_column_settings')
c('C25','proved','C25_indexes')
c('C26','proved','C26_no_redundant_index C26_expression_rejected')
c('C27','proved','C27_type_arguments')
c('C28','proved','C28_defaults_fit C28_bigint_max_rejected')
c('C29','proved','C29_enum_defaults C29_undeclared_type_accepted')
c('C30','proved','C30_refs_resolve C30_enum_schema_ignored')
c('C31','proved','C31_single_key C31_composite_key C31_many2many_one_key')
c('C32','proved','C32_no_conflicts')
c('C33','proved','C33_accepts_iff_valid C33_analyze_iff_valid')
c('C34','proved','C34_order_irrelevant C34_reversed')
c('C35','proved','C35_errors_truthful C35_defect_rejected C35_invalid_reported')
c('C36','proved','C36_alias_needs_schema C36_schema_as_written C36_witnesses')
c('C37','proved','C37_table_refs C37_no_loss C37_each_ref C37_totals')
c('C38','proved','C38_indexed_refs')
c('C39','proved','C39_index C39_resolve C39_enum_values C39_table_fields C39_table_fields_error')
c('C40','proved','C40_literals C40_identifiers C40_leading_trivia_dropped','Spec (Content, delimOf) in Props/Quoted.lean; the stronger claim is refuted by the third theorem.')
c('C41','proved','C41_identifiers')
c('C42','proved','C42_leading_trivia C42_leading_accept C42_leading_trivia_checked C42_trailing_space C42_trailing_accept C42_trailing_space_checked','Every text, every white space and (in front) comments; both for parse_dbml_unchecked and parse_dbml.')
c('C43','proved','C43_keywords_any_case','Documents and layouts as described in Spec/Source.lean; equality up to positions (mapSpan noPos).')
c('C44','proved','C44_written_is_read C44_print_parse C44_layout_irrelevant C44_unambiguous','Documents described construct by construct in Spec/Source.lean, any layout; equality up to positions (mapSpan noPos).')
c('C45','proved','C45_literal_words C45_longer_word_is_error','Any accepted text for the first; the second for every document prefix, table, column, earlier settings, remainder and layout.')
c('C46','proved','C46_builtin_types C46_never_placeholder')
c('C47','proved','C47_accessors C47_no_loss')
c('C48','proved','C48_project')
c('C49','proved','C49_error_spans_valid C49_no_span_panic')
c('C50','proved','C50_column_types C50_qualified_not_builtin')
c('C51','proved','C51_ast_denoted')
c('C52','proved','C52_checks_ignore_positions C52_verdict_of_document C52_layout_irrelevant C42_leading_trivia_checked','')
c('C53','proved','C53_message_tells_kind C53_message_determines C53_messages_identify_errors C53_never_reported C53_texts','messages of syntax errors (produced by pest) are in C65; different semantic errors that quote texts may have equal messages (example in Props/Messages.lean)')
c('C54','proved','C54_decimal_literals C54_nearest_unique C54_nearest_exists C54_same_number','str::parse::<f64> of the Rust standard library is modelled as correctly rounded; the theorem says the modelled algorithm is')
c('C55','proved','C55_to_string C55_canonical C55_literals','Display of f64 is modelled (shortest digits that read back, nearest of these); the theorem says the modelled algorithm has this property')
c('C56','proved','C56_same_result C56_quadratic C56_polynomial C56_tight C56_tight_accepted C56_not_linear','upper bound 82977267590*(n+1)^2 by amortised analysis of the grammar (and a crude one of degree 6 with a small constant); lower bound n^2 on accepted texts of 4n+8 characters; steps = evaluations of parsing expressions, rounds of repetitions, characters of literals compared, as counted by the instrumented interpreter (Model/Cost.lean); a model of pest\'s work up to a constant factor')
c('C57','proved','C57_language C57_rejected C57_ast C57_checked_language C57_normal_form','')
c('C58','proved','C58_join C58_join_fails C58_cut','')
c('C59','proved','C59_position_in_text C59_position_valid C59_good_prefix_not_blamed C59_comment_needed C59_leading_trivia','the offset is pest 2.7\'s attempt_pos, modelled in Model/ErrorPos.lean')
c('C60','proved','C60_drop C60_drop_text C60_cut_out C60_notes_irrelevant C60_merge C60_merge_text C60_capture','')
c('C61','proved','C61_call_depth C61_pair_depth','nesting of evaluations as modelled in Model/Depth.lean: a model of stack depth up to a constant number of frames per expression')
c('C62','proved','C62_line_col C62_line_col_injective C62_errors C62_lines_in_front C62_range C62_end C62_end_after_start','Position::line_col and Error::new_from_span of pest 2.7, modelled in Model/LineCol.lean; the rendering of the source line is not modelled')
c('C63','proved','C63_valid C63_text','Spec/Core.lean says what the core is; names of enums and enum values are kept, since type names and defaults are texts')
c('C64','proved','C64_all_stages C64_first_stage C64_error_tells C64_only_refs_left','Spec/Stages.lean lists the stages, their rules and their kinds of errors; the order inside a stage is C67')
c('C65','proved','C65_expected C65_order C65_end_of_input C65_identifier C65_relation C65_integer C65_unknown_declaration C65_message C65_all_messages C65_start_of_text','pos_attempts of pest 2.7, modelled in Model/Expected.lean; the rendering of the source line is not modelled')
c('C66','proved','C66_add_column C66_drop_column C66_column_order C66_enum_values C66_add_ref C66_texts','C66_texts transfers the conditions to accepted texts')
c('C67','proved','C67_accepted C67_error C67_crash C67_valid','Spec/Checklist.lean is the checklist: rules of Spec/Valid.lean in order, with the error and span of each')
c('C68','proved','C68_truncated C68_declarations_kept C68_truncated_checked C68_ref_may_change C68_note_may_change C68_comment_may_change','Spec/Truncate.lean says what a cut-off declaration may have been')
c('C69','proved','C69_recode C69_line_ends C69_letters C69_checked','Spec/Recode.lean says what is replaced; the equivalence is for texts with one kind of line end')
c('C70','proved','C70_alike_valid C70_alike_accepted C70_symm C70_refl C70_turn','Spec/Alike.lean says what it means to say the same')
c('C71','proved','C71_ok C71_valid C71_same_meaning C71_rewrite C71_rejected C71_index_order C71_index_blocks','Spec/Rewrite.lean lists the steps')
c('C72','proved','C72_add_enum C72_drop_enum C72_add_group C72_add_table C72_drop_table C72_add_index C72_drop_index C72_drop_index_unused C72_texts','C72_texts transfers the conditions to accepted texts; tables whose alias captures a name in use are excluded by hypothesis (C60_capture shows why)')
c('C73','proved','C73_stands C73_span C73_alone C73_cut C73_splice C73_delete C73_insert C73_splice_checked','BlockD (Spec/Syntax.lean) says what a declaration at a piece of the text is')
c('C74','proved','C74_print_reads C74_checked C74_idempotent C74_same_print C74_clean_of_text','the printer is Spec/Print.lean; an example shows why the AST must not contain /*')
c('C75','proved','C75_wellformed C75_read_back C75_exact C75_checked C75_print_injective','Spec/Shape.lean defines the well-formed ASTs; the condition on /* is needed, see C74')
c('C76','proved','C76_display_never_panics C76_syntax C76_one_line C76_several_lines C76_marker_in_place','Spec/Render.lean defines the pictures; Model/Render.lean models Error::format of pest 2.7')
c('C77','proved','C77_rename C77_one C77_apart C77_by_role C77_checked C77_refactor C77_refactor_by_role','Spec/Rename.lean defines the names of an AST and the edits; a quoted name is not replaced by a word (counterexample beside the theorems); enum names in column types and defaults are no identifiers of the AST, so enums are not covered by C77_refactor')
c('C78','proved','C78_column_text C78_column_delete C78_column_replace C78_column_insert C78_index_text C78_index_delete C78_index_replace C78_index_insert C78_value_text C78_value_delete C78_value_replace C78_value_insert C78_member_text C78_member_delete C78_member_replace C78_member_insert C78_columns_between C78_values_between C78_members_between C78_indexes_between C78_drop_column C78_replace_value ReadsAs.checked','ColumnsText etc. (Spec/Members.lean) say what a text that declares members is; for indexes C78_indexes_between is one direction only, since a second Indexes block replaces the first in the AST')
c('C79','proved','C79_valid C79_text C79_public ok_by ok_dropPublic','Spec/EnumNames.lean defines the renamed schema; ok_by gives the renaming of types from one of names')
c('C80','proved','C80_ast_size C80_checked C80_at_least C80_shown_length','Spec/Size.lean counts records and stored characters; allocator overhead and Vec capacity are not modelled; the tree of pairs that pest builds in between is bounded by C86')
c('C81','proved','C81_viable C81_viable_beginning C81_dead_end C81_unfinished C81_not_latest','Structural completeness proof over the whole grammar (Proofs/Viable1-13): for every construct, what was read is read again in front of a fitting continuation, and every place where a rule was tried can be completed. A completed text may still be rejected for other reasons (an integer literal that is too large; shown by an example).')
c('C82','proved','C82_fits C82_end C82_schema sample_ok C82_gap_needed C82_not_all','Spec.sample (Spec/Expected.lean) gives one example for each rule, sample_ok shows that the rule matches all of it; the sample of a rule is fixed, so the theorem speaks of that example, not of every text of the rule')
c('C83','proved','C83_same_result C83_quadratic C83_text C83_at_least','steps are counted by an instrumented copy of the analysis (Model/CheckCost.lean) that C83_same_result ties to the modelled analysis; string comparisons count one, BTreeMap operations count the height of the tree (log2 n + 1 nodes, a fact about the standard library that is assumed), the memory allocator and the work of pest errors beyond the text length are not counted')
c('C84','proved','C84_same_report C84_schemas','Spec/Core.lean defines the core and the renamings, Spec/Kinds.lean when two reports are the same; enums and their schemas are not renamed, so a renaming of schemas can turn a missing table into a missing schema (example beside the theorems): C84_schemas merges these kinds')
c('C85','proved','C85_only_missing C85_no_repair C85_no_crash_repair','Spec/Repair.lean says what adding is (up to the core, so positions, notes and quotes may differ) and which errors say that something is missing; examples show that each of the four can be repaired and that an alias can repair another')
c('C86','proved','C86_pairs','the number of nodes of the tree that the walk receives; what pest keeps while it backtracks is not modelled')
c('C87','proved','C87_debug C87_texts C87_table C87_double C87_exponent C87_point C87_canonical','Model/Debug.lean is what derive(Debug) writes in the alternate mode; which characters other than those with a one-letter escape are shown as they are depends on the Unicode tables of the compiler and is a parameter over which the theorems range; Canonical only excludes pairs (m, e) of the model that are not the normal form of a double (an example shows that it is needed in the model)')
c('C88','proved','C88_report_stays C88_same_place C88_joined','Spec/Appended.lean says which kinds come later; stages as in C64 (Spec/Stages.lean). C88_report_stays compares up to the core, so notes, places and quotes of what was there may change as well; examples show that a declaration of an earlier kind, and a ref after a ref, can change the report')
