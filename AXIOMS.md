# Axioms

The axioms each theorem of MANIFEST.json depends on, as printed by Lean (`#print axioms`).

## (none): 17 theorems

Iv.C04_shape_scalar, Iv.C103_other_key, Iv.C19_interval_negative, Iv.C19_interval_zero, Iv.C31_round, Iv.C32_commute, Iv.C32_commute_twice, Iv.C40_duplicate_keys, Iv.C40_index, Iv.C40_keys, Iv.C40_keys_make, Iv.C51_reshape_crash, Iv.C56_tally, Iv.C67_mixed, Iv.C68_mixed, Iv.C82_ceil_before, Iv.C82_saturates

## propext: 105 theorems

Iv.C01_prod_is_count, Iv.C01_rank0_panics, Iv.C03_empty_source_counterexamples, Iv.C03_negative_shape_accepted, Iv.C03_reshape_no_axes, Iv.C07_repeated, Iv.C08_empty_rejected, Iv.C09_single_count_rejected, Iv.C100_empty_example, Iv.C101_last_line, Iv.C101_lines, Iv.C101_long_line, Iv.C103_failed, Iv.C104_elementless, Iv.C104_empty_brackets, Iv.C104_take_none, Iv.C11_primitive, Iv.C12_empty, Iv.C12_reject_axis, Iv.C12_right_adds_row, Iv.C13_axis_bound_panics, Iv.C13_scalars, Iv.C14_empty_panics, Iv.C15_shortage_panics, Iv.C15_surplus_ignored, Iv.C16_empty, Iv.C17_no_array, Iv.C18_nested_fill_counterexample, Iv.C18_no_array, Iv.C19_left_matrix_rejected, Iv.C19_left_scalar, Iv.C19_right_scalar, Iv.C21_union_empty, Iv.C21_without_empty, Iv.C22_tower_three_types, Iv.C24_decode_mismatch, Iv.C25_scalar, Iv.C26_scalar_empty, Iv.C27_times_counterexample, Iv.C28_outer_scalar, Iv.C29_each_empty, Iv.C29_each_mismatch, Iv.C29_list_left_scalar_rejected, Iv.C30_reachable_one, Iv.C32_compose, Iv.C33_empty, Iv.C33_scalars, Iv.C34_direct, Iv.C35_reciprocal, Iv.C35_reciprocal_value, Iv.C38_truth, Iv.C40_duplicate_keys_assign, Iv.C41_get, Iv.C41_negative_origin1, Iv.C42_failed_modifier, Iv.C42_lambda_argument, Iv.C51_left_leak, Iv.C51_two_stages_leak, Iv.C54_bool_empty, Iv.C54_dyadic, Iv.C54_empty_ignores_child, Iv.C54_monadic, Iv.C54_not_leaks, Iv.C54_rejected_converted, Iv.C54_rejected_unchanged, Iv.C57_across_rows, Iv.C57_empty_left, Iv.C57_panic, Iv.C58_duplicate, Iv.C58_empty_panic, Iv.C58_order_ignored, Iv.C60_rank, Iv.C61_strcat, Iv.C62_shape, Iv.C67_monadic_fails, Iv.C74_create, Iv.C76_empty, Iv.C76_narrow_matrix, Iv.C76_offset_not_padding, Iv.C79_left_crashes, Iv.C79_lower_key, Iv.C79_mismatch_crashes, Iv.C79_round_trip, Iv.C79_struct_result, Iv.C79_to_apl, Iv.C79_to_go, Iv.C79_uint, Iv.C80_rejected, Iv.C80_set_rejected, Iv.C81_arguments, Iv.C81_closed, Iv.C81_not_sendable, Iv.C83_array, Iv.C87_matrix_only, Iv.C93_catenate_first_scalars, Iv.C93_enlist_idempotent, Iv.C93_one_axis, Iv.C93_table_scalar, Iv.C94_identity_compare, Iv.C94_identity_min_max, Iv.C95_read, Iv.C95_read_array, Iv.C96_nested, Iv.C99_empty_first, Iv.C99_unread

## propext, Classical.choice, Quot.sound: 510 theorems

Iv.C01_index_roundtrip, Iv.C02_odometer, Iv.C03_reshape_cyclic, Iv.C03_reshape_scalar, Iv.C04_reshape_ravel, Iv.C04_shape_of_reshape, Iv.C05_reject, Iv.C05_take, Iv.C05_take_vector, Iv.C06_drop, Iv.C06_drop_vector, Iv.C06_partition, Iv.C07_others_partial, Iv.C08_involution, Iv.C08_primitive, Iv.C08_reverse, Iv.C08_vector, Iv.C09_compose, Iv.C09_compose_vector, Iv.C09_inverse_vector, Iv.C09_reject, Iv.C09_rotate, Iv.C09_rotate_vector, Iv.C100_assign, Iv.C100_calls, Iv.C100_no_number, Iv.C101_crash, Iv.C101_file, Iv.C101_first_file, Iv.C101_no_failure, Iv.C101_rejected_line, Iv.C101_session, Iv.C101_truncated_file, Iv.C102_accepts, Iv.C102_report, Iv.C102_test, Iv.C103_inside, Iv.C103_keys, Iv.C103_second_call, Iv.C103_set, Iv.C104_below_origin_rejected, Iv.C104_laminate, Iv.C104_outside, Iv.C104_reduce, Iv.C104_reverse, Iv.C104_several, Iv.C104_take_axes, Iv.C105_arguments, Iv.C105_failure, Iv.C105_no_newline, Iv.C105_success, Iv.C105_test_file, Iv.C10_involution, Iv.C10_transpose, Iv.C11_dyadic_transpose, Iv.C12_assoc, Iv.C12_catenate, Iv.C12_left_smaller, Iv.C12_reject_mismatch, Iv.C12_reject_rank, Iv.C12_right_smaller, Iv.C12_scalar_left, Iv.C12_scalar_right, Iv.C12_vector, Iv.C13_laminate, Iv.C13_laminate_core, Iv.C13_scalar_left, Iv.C13_scalar_right, Iv.C14_length, Iv.C14_replicate, Iv.C14_single_count, Iv.C14_single_position, Iv.C14_vector, Iv.C15_compress_expand, Iv.C15_expand, Iv.C15_single_extend, Iv.C15_vector, Iv.C16_index, Iv.C16_rejected, Iv.C16_valid, Iv.C16_vector, Iv.C17_bracket, Iv.C17_flat, Iv.C17_out_of_range, Iv.C18_drop, Iv.C18_dyadic_transpose, Iv.C18_expand, Iv.C18_ravel, Iv.C18_read_back, Iv.C18_replicate, Iv.C18_reshape, Iv.C18_reverse, Iv.C18_rotate, Iv.C18_rotate_vector, Iv.C18_select_fill, Iv.C18_selection, Iv.C18_take, Iv.C18_take_axis, Iv.C18_takedrop, Iv.C18_transpose, Iv.C19_indexof, Iv.C19_isEqual, Iv.C19_select, Iv.C20_where, Iv.C20_where_reject, Iv.C20_where_scalar, Iv.C21_without, Iv.C22_collating, Iv.C22_exists, Iv.C22_grade, Iv.C22_tower, Iv.C22_vector, Iv.C23_bracket, Iv.C23_interval, Iv.C23_ties, Iv.C23_unsorted, Iv.C24_decode, Iv.C24_decode_arrays, Iv.C24_decode_scalar, Iv.C24_digits_unique, Iv.C24_encode, Iv.C24_encode_arrays, Iv.C24_encode_int, Iv.C24_roundtrip, Iv.C24_zero_lead, Iv.C25_axis, Iv.C25_axis_one, Iv.C25_element, Iv.C25_vector, Iv.C26_axis, Iv.C26_element, Iv.C27_negative, Iv.C27_plus, Iv.C27_shortcut, Iv.C27_times, Iv.C27_windows, Iv.C28_inner, Iv.C28_outer, Iv.C28_outer_element, Iv.C30_common, Iv.C30_dyadic, Iv.C30_dyadic_whole_left, Iv.C30_dyadic_whole_right, Iv.C30_join, Iv.C30_monadic, Iv.C31_until, Iv.C32_eval_atop, Iv.C32_eval_even, Iv.C32_eval_fork, Iv.C32_eval_odd, Iv.C32_eval_short, Iv.C33_axis, Iv.C33_element, Iv.C33_mismatch, Iv.C33_same_shape, Iv.C33_single_extension, Iv.C34_arith2, Iv.C34_same_class, Iv.C34_set_tower, Iv.C35_abs_sign, Iv.C35_division, Iv.C36_compare, Iv.C36_consistent, Iv.C36_defined, Iv.C36_strings, Iv.C37_gcd, Iv.C37_lcm, Iv.C37_residue_exact, Iv.C37_residue_int, Iv.C37_residue_integers, Iv.C39_binomial, Iv.C39_factorial, Iv.C39_negative_left, Iv.C39_negative_right, Iv.C39_range, Iv.C39_range_negative, Iv.C39_zero, Iv.C40_assign_key, Iv.C40_assign_keys, Iv.C40_history, Iv.C40_index_keys, Iv.C40_make, Iv.C40_make_one, Iv.C40_nonconforming, Iv.C40_set, Iv.C41_assign, Iv.C41_index, Iv.C41_modified, Iv.C41_rejected, Iv.C43_lambda_names, Iv.C43_lambda_scope, Iv.C43_restored, Iv.C44_assign, Iv.C44_chain, Iv.C44_default_left, Iv.C44_lookup, Iv.C44_lookup_none, Iv.C44_modified, Iv.C44_name_rules, Iv.C44_named_function, Iv.C44_origin, Iv.C44_undeclared, Iv.C44_unreachable, Iv.C44_variable, Iv.C44_writes, Iv.C45_cond_fails, Iv.C45_end, Iv.C45_first_true, Iv.C45_last, Iv.C45_not_bool, Iv.C45_tail_call, Iv.C45_tail_guard_ignored, Iv.C45_unreachable_code, Iv.C46_dyadic_order, Iv.C46_long_right_scope, Iv.C46_monadic_order, Iv.C46_operator_axis, Iv.C46_unique, Iv.C46_words, Iv.C47_empty_statement, Iv.C47_eval, Iv.C47_output, Iv.C47_statements, Iv.C47_total, Iv.C48_every_string, Iv.C48_line, Iv.C48_literal, Iv.C48_only_literals, Iv.C48_reject, Iv.C48_unterminated, Iv.C49_cover, Iv.C49_reject, Iv.C49_scan, Iv.C49_unique, Iv.C50_complete, Iv.C50_error, Iv.C50_parse_lines, Iv.C50_state, Iv.C51_close_returns, Iv.C51_complete, Iv.C51_exact, Iv.C51_progress, Iv.C51_take, Iv.C51_unique, Iv.C52_reduce_all, Iv.C52_returns, Iv.C52_scan_all, Iv.C53_dyadic_operator, Iv.C53_latest_handler, Iv.C53_monadic_operator, Iv.C53_no_handler, Iv.C53_unknown_operator, Iv.C54_contents, Iv.C54_pair_contents, Iv.C54_to_vector, Iv.C55_failed, Iv.C55_not_numbers, Iv.C55_one_type, Iv.C55_plain, Iv.C55_preserves, Iv.C55_promotes, Iv.C56_depth, Iv.C56_match, Iv.C56_mixed_error, Iv.C56_reflexive, Iv.C56_symmetric, Iv.C56_transitive, Iv.C57_exact, Iv.C57_find_partial, Iv.C57_ravel, Iv.C57_single, Iv.C57_vector, Iv.C58_index, Iv.C58_index_range, Iv.C58_mask, Iv.C59_deal, Iv.C59_every_selection, Iv.C59_roll, Iv.C60_accepts, Iv.C60_one, Iv.C60_parts, Iv.C61_join_split, Iv.C61_split_pieces, Iv.C62_divide, Iv.C62_divide_vector, Iv.C62_inverse, Iv.C62_least_squares, Iv.C62_one, Iv.C62_one_panics, Iv.C62_solver_error_ignored, Iv.C63_assign, Iv.C63_nonconforming, Iv.C65_index, Iv.C66_different_rows, Iv.C66_groups, Iv.C66_one_name, Iv.C66_plan, Iv.C66_query, Iv.C66_query_all, Iv.C66_query_function, Iv.C66_values, Iv.C67_table_monadic, Iv.C68_dicts, Iv.C68_rows, Iv.C69_cells, Iv.C69_modifier_value, Iv.C70_json, Iv.C70_mat, Iv.C70_no_elements, Iv.C70_prototype, Iv.C70_prototype_type, Iv.C70_table, Iv.C70_total, Iv.C71_negative, Iv.C71_round_trip, Iv.C71_text, Iv.C71_token, Iv.C72_literal, Iv.C72_plain, Iv.C72_printable, Iv.C72_token, Iv.C73_first_empty, Iv.C73_json, Iv.C73_lines, Iv.C73_matrices, Iv.C73_total, Iv.C74_call, Iv.C74_history, Iv.C74_mount, Iv.C74_shadow, Iv.C74_undo, Iv.C75_escape, Iv.C75_inside, Iv.C75_listing, Iv.C75_listing_without_slash, Iv.C76_matrix, Iv.C76_offset, Iv.C76_rejected, Iv.C76_stencil, Iv.C76_vector, Iv.C77_constant, Iv.C77_load, Iv.C77_lower_case, Iv.C77_missing_file, Iv.C77_packages, Iv.C78_bad_line, Iv.C78_block, Iv.C78_end, Iv.C78_no_panic, Iv.C78_unparsed, Iv.C78_unterminated, Iv.C79_arguments, Iv.C79_call, Iv.C79_not_called, Iv.C79_set, Iv.C80_color, Iv.C80_image, Iv.C80_image_opaque, Iv.C80_set, Iv.C81_calls, Iv.C81_crash, Iv.C81_exact, Iv.C81_result_not_sendable, Iv.C81_serve, Iv.C82_add, Iv.C82_add_stamps, Iv.C82_ceil, Iv.C82_difference, Iv.C82_less_difference, Iv.C82_neg, Iv.C82_neg_rejected, Iv.C82_sub, Iv.C82_sub_rejected, Iv.C82_y1k, Iv.C83_duration, Iv.C83_stamp, Iv.C83_week_1000, Iv.C84_compare, Iv.C84_exact, Iv.C84_factorial, Iv.C84_floor, Iv.C84_gcd, Iv.C84_gcd_unique, Iv.C84_integers, Iv.C84_lcm, Iv.C84_monadic, Iv.C84_native_division, Iv.C84_power, Iv.C84_power_changes_argument, Iv.C84_power_zero, Iv.C84_zero_division, Iv.C85_close, Iv.C85_create, Iv.C85_create_rejected, Iv.C85_environment, Iv.C85_listed_opens, Iv.C85_listing, Iv.C85_listing_package, Iv.C85_open, Iv.C85_quiet, Iv.C85_read_back, Iv.C85_shadows, Iv.C86_load_mount, Iv.C86_mount_tokens, Iv.C86_nested, Iv.C86_short_forms, Iv.C86_time, Iv.C86_time_empty, Iv.C86_time_program, Iv.C87_csv, Iv.C87_matrix, Iv.C87_table_csv, Iv.C87_unambiguous, Iv.C88_decimal, Iv.C88_fraction, Iv.C88_integer, Iv.C88_round_trip, Iv.C88_text, Iv.C88_token, Iv.C89_complex, Iv.C89_complex_round_trip, Iv.C89_float, Iv.C89_infinity, Iv.C89_large, Iv.C89_polar, Iv.C89_two_dots, Iv.C90_duration_as_date, Iv.C90_literal, Iv.C90_no_such_day, Iv.C90_only, Iv.C90_round_trip, Iv.C90_text, Iv.C90_unique, Iv.C91_form, Iv.C91_literal, Iv.C91_micro, Iv.C91_round_trip, Iv.C91_small, Iv.C91_text, Iv.C91_token, Iv.C92_program, Iv.C92_session, Iv.C92_source, Iv.C92_world, Iv.C93_append_axis, Iv.C93_catenate_first, Iv.C93_catenate_first_item, Iv.C93_catenate_first_scalar, Iv.C93_enlist, Iv.C93_merge_axes, Iv.C93_new_axis, Iv.C93_no_elements, Iv.C93_table, Iv.C94_identity_arith, Iv.C94_identity_logic, Iv.C94_reduce_table, Iv.C94_tack, Iv.C95_assign_list, Iv.C95_modify_list, Iv.C95_read_list, Iv.C96_distinct, Iv.C96_empty, Iv.C96_json, Iv.C97_distinct, Iv.C97_exceptions, Iv.C97_numbers, Iv.C97_typed_in, Iv.CalcDemo.C92_factorial, Iv.CalcDemo.C92_scan_each, Iv.CmdDemo.C101_crash_example, Iv.CmdDemo.C101_second_file_ignored, Iv.Cplx.C98_add, Iv.Cplx.C98_big_ceil, Iv.Cplx.C98_big_floor, Iv.Cplx.C98_ceil_near, Iv.Cplx.C98_ceil_real, Iv.Cplx.C98_conj, Iv.Cplx.C98_direction, Iv.Cplx.C98_direction_value, Iv.Cplx.C98_divide, Iv.Cplx.C98_floor, Iv.Cplx.C98_floor_near, Iv.Cplx.C98_floor_real, Iv.Cplx.C98_floor_rounds, Iv.Cplx.C98_floor_shift, Iv.Cplx.C98_index, Iv.Cplx.C98_magnitude, Iv.Cplx.C98_mul, Iv.Cplx.C98_neg, Iv.Cplx.C98_reciprocal, Iv.Cplx.C98_sub, Iv.CsvDemo.C87_blank_line, Iv.CsvDemo.C87_format_leak, Iv.CsvDemo.C87_user_format_ignored, Iv.ParseDemo.C46_assign_train, Iv.ParseDemo.C46_axis_then_operator, Iv.ParseDemo.C46_double_index, Iv.ParseDemo.C46_empty_elements, Iv.ParseDemo.C46_leading_bracket, Iv.ParseDemo.C46_list_with_index, Iv.ParseDemo.C46_operator_then_operator, Iv.ParseDemo.C46_three_operators, Iv.ParseDemo.C46_train_flattened, Iv.ParseDemo.C47_diamond_in_parentheses, Iv.PkgDemo.C77_origin_leaks, Iv.PkgDemo.C77_package_function_scope, Iv.RpcDemo.C81_stale_function, Iv.RpcDemo.C81_stale_left, Iv.ScanDemo.C50_diamond_before_brace, Iv.ScanDemo.C50_trailing_empty_line

## propext, Quot.sound: 177 theorems

Iv.C03_reshape_empty, Iv.C04_ravel, Iv.C07_drop_overwrites, Iv.C07_short_left, Iv.C07_take_partial, Iv.C07_transpose_increments, Iv.C07_transpose_partial, Iv.C100_empty_stuck, Iv.C101_carriage_return, Iv.C102_directory, Iv.C103_started, Iv.C104_below_origin, Iv.C104_first_last, Iv.C104_not_one_axis, Iv.C104_number, Iv.C104_origin, Iv.C104_rotate_vector, Iv.C10_empty_panics, Iv.C11_reject, Iv.C13_reject, Iv.C14_reject, Iv.C17_nonconforming, Iv.C18_takedrop_fill, Iv.C19_found, Iv.C19_interval, Iv.C19_unique, Iv.C20_membership, Iv.C20_membership_scalar, Iv.C21_union, Iv.C21_unique, Iv.C21_unique_complete, Iv.C21_unique_nodup, Iv.C25_bad_axis, Iv.C25_empty, Iv.C25_zero_length_deviation, Iv.C26_vector, Iv.C26_zero_length_panics, Iv.C27_no_window, Iv.C27_too_long, Iv.C27_zero, Iv.C28_fold_pure, Iv.C28_inner_mismatch, Iv.C28_inner_scalar, Iv.C28_inner_vectors, Iv.C29_each_abort, Iv.C29_each_dyadic, Iv.C29_each_monadic, Iv.C29_each_scalar, Iv.C29_list, Iv.C30_dyadic_mismatch, Iv.C30_frame_rank2_fails, Iv.C30_full_rank_not_applied, Iv.C30_rank_range, Iv.C31_limit, Iv.C31_power, Iv.C31_power_add, Iv.C32_basic, Iv.C32_train_even, Iv.C32_train_odd, Iv.C33_axis_reject, Iv.C33_monadic, Iv.C33_scalar_extension, Iv.C34_arith1_terminates, Iv.C34_bool_int, Iv.C34_same_class_total, Iv.C35_arith, Iv.C35_spec_exact, Iv.C35_spec_unique, Iv.C36_nan, Iv.C37_zero, Iv.C38_demorgan, Iv.C38_not, Iv.C38_reject, Iv.C40_index_missing, Iv.C40_modified, Iv.C41_set, Iv.C42_any_modifier, Iv.C42_assign_ends, Iv.C42_assigned, Iv.C42_independent, Iv.C42_other_variables, Iv.C42_self_containing, Iv.C47_tokens, Iv.C47_unique, Iv.C50_joined_unique, Iv.C51_all_return, Iv.C51_no_crash, Iv.C51_one_print, Iv.C51_one_stage, Iv.C51_received, Iv.C51_source, Iv.C51_terminates, Iv.C51_two_sources, Iv.C52_reduce, Iv.C52_scan, Iv.C52_terminates, Iv.C53_operator_arity, Iv.C53_register_operator, Iv.C54_both, Iv.C54_either, Iv.C54_not, Iv.C54_or, Iv.C54_or_rejects, Iv.C54_split, Iv.C54_to_indexes, Iv.C54_to_number, Iv.C54_to_scalar, Iv.C56_not_match, Iv.C59_accepts, Iv.C59_roll_scalar, Iv.C61_fields, Iv.C61_fields_separate, Iv.C61_runes, Iv.C61_split_join, Iv.C64_flip, Iv.C64_flip_iff, Iv.C64_flip_table, Iv.C64_roundtrip, Iv.C65_function, Iv.C65_no_rows, Iv.C65_outside, Iv.C65_to_array, Iv.C65_unknown_column, Iv.C66_partition, Iv.C66_plan_function, Iv.C66_rejected, Iv.C66_table, Iv.C67_different_rows, Iv.C67_dyadic, Iv.C67_dyadic_fails, Iv.C67_monadic, Iv.C67_table_dyadic, Iv.C67_value, Iv.C68_columns, Iv.C68_different_rows, Iv.C68_merge, Iv.C68_rows_different, Iv.C68_value, Iv.C69_rejected, Iv.C69_replaced, Iv.C69_update, Iv.C74_open, Iv.C74_protocol, Iv.C74_umount, Iv.C79_accepted, Iv.C79_result, Iv.C79_uint_wraps, Iv.C80_at, Iv.C80_opaque, Iv.C80_transparent, Iv.C82_disjoint, Iv.C82_floor, Iv.C82_less, Iv.C83_unique, Iv.C83_unknown, Iv.C86_time_block, Iv.C87_table, Iv.C89_json_minus, Iv.C93_reject_new_axis, Iv.C93_reject_order, Iv.C93_reject_range, Iv.C93_scalar, Iv.C94_object, Iv.C94_object_fails, Iv.C94_scan_table, Iv.C94_tack_vector, Iv.C95_assign, Iv.C95_assign_array, Iv.C95_empty_selection, Iv.C95_missing, Iv.C95_modify, Iv.C95_table, Iv.C99_bytes, Iv.C99_leading_newline, Iv.C99_not_string, Iv.C99_runes, Iv.C99_stream
