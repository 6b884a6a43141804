'Pscm.c01_plus' depends on axioms: [propext, Quot.sound]
'Pscm.c01_times' depends on axioms: [propext, Quot.sound]
'Pscm.c01_minus' depends on axioms: [propext, Classical.choice, Quot.sound]
'Pscm.c02_division' depends on axioms: [propext, Classical.choice, Quot.sound]
'Pscm.c02_edges' depends on axioms: [propext]
'Pscm.c03_gcd' depends on axioms: [propext, Classical.choice, Quot.sound]
'Pscm.c03_gcd_ub' depends on axioms: [propext, Classical.choice, Quot.sound]
'Pscm.c03_lcm' depends on axioms: [propext, Classical.choice, Quot.sound]
'Pscm.c04_div' depends on axioms: [propext, Classical.choice, Quot.sound]
'Pscm.c04_div_zero' depends on axioms: [propext, Quot.sound]
'Pscm.c04_div_unary' depends on axioms: [propext, Classical.choice, Quot.sound]
'Pscm.c05_compare' depends on axioms: [propext, Quot.sound]
'Pscm.c05_mixed' depends on axioms: [propext, Classical.choice, Quot.sound]
'Pscm.c06_parity_partial' depends on axioms: [propext, Classical.choice, Quot.sound]
'Pscm.c06_parity_large' depends on axioms: [propext, Classical.choice, Quot.sound]
'Pscm.c06_counterexample' depends on axioms: [propext, Classical.choice, Quot.sound]
'Pscm.c07_max_min_partial' depends on axioms: [propext, Classical.choice, Quot.sound]
'Pscm.c07_counterexample' depends on axioms: [propext, Classical.choice, Quot.sound]
'Pscm.c07_mixed' depends on axioms: [propext, Classical.choice, Quot.sound]
'Pscm.c07_not_number' depends on axioms: [propext]
'Pscm.c08_expt' depends on axioms: [propext, Quot.sound]
'Pscm.c08_expt_negative' depends on axioms: [propext, Quot.sound]
'Pscm.c09_abs' depends on axioms: [propext, Classical.choice, Quot.sound]
'Pscm.c09_sign' depends on axioms: [propext, Classical.choice, Quot.sound]
'Pscm.c10_print_partial' depends on axioms: [propext, Classical.choice, Quot.sound]
'Pscm.c10_read' depends on axioms: [propext, Classical.choice, Quot.sound]
'Pscm.c10_roundtrip_partial' depends on axioms: [propext, Classical.choice, Quot.sound]
'Pscm.c10_min_undefined' depends on axioms: [propext, Quot.sound]
'Pscm.c10_bad_radix' depends on axioms: [propext, Quot.sound]
'Pscm.c10_ratio' depends on axioms: [propext, Classical.choice, Quot.sound]
'Pscm.c11_cons_partial' depends on axioms: [propext, Classical.choice, Quot.sound]
'Pscm.c11_cdr_not_eq' depends on axioms: [propext, Classical.choice, Quot.sound]
'Pscm.c11_circular_counterexample' depends on axioms: [propext, Quot.sound]
'Pscm.c11_flagged_counterexample' depends on axioms: [propext]
'Pscm.c11_cxr_partial' depends on axioms: [propext, Quot.sound]
'Pscm.c11_cadr_counterexample' depends on axioms: [propext]
'Pscm.c12_set_car' depends on axioms: [propext, Quot.sound]
'Pscm.c12_set_cdr' depends on axioms: [propext, Quot.sound]
'Pscm.c12_non_pair' depends on axioms: [propext]
'Pscm.c13_length_partial' depends on axioms: [propext, Classical.choice, Quot.sound]
'Pscm.c13_length_non_list' depends on axioms: [propext]
'Pscm.c13_length_improper' depends on axioms: [propext, Classical.choice, Quot.sound]
'Pscm.c13_counterexample' depends on axioms: [propext]
'Pscm.c14_reverse_partial' depends on axioms: [propext, Quot.sound]
'Pscm.c14_reverse_twice' depends on axioms: [propext, Quot.sound]
'Pscm.c14_counterexample' depends on axioms: [propext]
'Pscm.c15_append_partial' depends on axioms: [propext, Quot.sound]
'Pscm.c15_append_improper' depends on axioms: [propext, Classical.choice, Quot.sound]
'Pscm.c15_counterexample' depends on axioms: [propext]
'Pscm.c16_list_ref' depends on axioms: [propext, Classical.choice, Quot.sound]
'Pscm.c16_list_tail' depends on axioms: [propext, Quot.sound]
'Pscm.c16_list_head' depends on axioms: [propext, Classical.choice, Quot.sound]
'Pscm.c16_head_tail' depends on axioms: [propext, Classical.choice, Quot.sound]
'Pscm.c17_actual' depends on axioms: [propext, Quot.sound]
'Pscm.c17_last_pair_partial' depends on axioms: [propext, Classical.choice, Quot.sound]
'Pscm.c17_counterexample' depends on axioms: [propext, Quot.sound]
'Pscm.c18_memq' depends on axioms: [propext, Quot.sound]
'Pscm.c18_member_partial' depends on axioms: [propext, Quot.sound]
'Pscm.c18_memv_partial' depends on axioms: [propext, Quot.sound]
'Pscm.c18_counterexample' depends on axioms: [propext]
'Pscm.c19_list_p_partial' depends on axioms: [propext, Quot.sound]
'Pscm.c19_counterexample' depends on axioms: [propext, Quot.sound]
'Pscm.c20_equal' depends on axioms: [propext, Classical.choice, Quot.sound]
'Pscm.c20_equivalence' depends on axioms: [propext, Classical.choice, Quot.sound]
'Pscm.c21_chain' depends on axioms: [propext]
'Pscm.c21_strict' depends on axioms: [propext]
'Pscm.c22_agree_partial' depends on axioms: [propext, Classical.choice, Quot.sound]
'Pscm.c22_counterexample' depends on axioms: [propext]
'Pscm.c22_error' depends on axioms: [propext]
'Pscm.c23_assq' depends on axioms: [propext, Quot.sound]
'Pscm.c23_assoc_partial' depends on axioms: [propext, Classical.choice, Quot.sound]
'Pscm.c24_assq_set' depends on axioms: [propext, Quot.sound]
'Pscm.c24_assoc_set_partial' depends on axioms: [propext, Classical.choice, Quot.sound]
'Pscm.c24_counterexample' depends on axioms: [propext]
'Pscm.c24_acons' depends on axioms: [propext, Quot.sound]
'Pscm.c25_remove_partial' depends on axioms: [propext, Classical.choice, Quot.sound]
'Pscm.c25_counterexample' depends on axioms: [propext]
'Pscm.c26_hashq' depends on axioms: [propext, Classical.choice, Quot.sound]
'Pscm.c26_hashv' depends on axioms: [propext, Classical.choice, Quot.sound]
'Pscm.c26_hash_partial' depends on axioms: [propext, Classical.choice, Quot.sound]
'Pscm.c26_counterexample' depends on axioms: [propext, Classical.choice, Quot.sound]
'Pscm.c26_handle_counterexample' depends on axioms: [propext]
'Pscm.c27_hashq' depends on axioms: [propext]
'Pscm.c27_hashv' depends on axioms: [propext]
'Pscm.c27_hash_partial' depends on axioms: [propext, Classical.choice, Quot.sound]
'Pscm.c27_counterexample' depends on axioms: [propext]
'Pscm.c28_counts' depends on axioms: [propext, Classical.choice, Quot.sound]
'Pscm.c29_ref' depends on axioms: [propext, Quot.sound]
'Pscm.c29_set' depends on axioms: [propext, Quot.sound]
'Pscm.c29_non_vector' depends on axioms: [propext]
'Pscm.c29_history' depends on axioms: [propext, Classical.choice, Quot.sound]
'Pscm.c29_make' depends on axioms: [propext, Quot.sound]
'Pscm.c29_length' depends on axioms: [propext, Classical.choice, Quot.sound]
'Pscm.c30_vector_to_list_partial' depends on axioms: [propext, Classical.choice, Quot.sound]
'Pscm.c30_list_to_vector' depends on axioms: [propext, Quot.sound]
'Pscm.c30_inverse_partial' depends on axioms: [propext, Classical.choice, Quot.sound]
'Pscm.c30_counterexample' depends on axioms: [propext, Quot.sound]
'Pscm.c31_ref' depends on axioms: [propext, Quot.sound]
'Pscm.c31_set' depends on axioms: [propext, Quot.sound]
'Pscm.c31_substring' depends on axioms: [propext, Quot.sound]
'Pscm.c31_non_string' depends on axioms: [propext]
'Pscm.c31_history' depends on axioms: [propext, Classical.choice, Quot.sound]
'Pscm.c31_make_partial' depends on axioms: [propext, Quot.sound]
'Pscm.c31_make_huge' depends on axioms: [propext, Quot.sound]
'Pscm.c31_length' depends on axioms: [propext, Classical.choice, Quot.sound]
'Pscm.c32_append_partial' depends on axioms: [propext, Classical.choice, Quot.sound]
'Pscm.c32_append_error' depends on axioms: [propext]
'Pscm.c32_length' depends on axioms: [propext, Quot.sound]
'Pscm.c32_string_to_list' depends on axioms: [propext, Quot.sound]
'Pscm.c32_list_to_string_partial' depends on axioms: [propext, Classical.choice, Quot.sound]
'Pscm.c32_list_to_string_error' depends on axioms: [propext, Quot.sound]
'Pscm.c32_inverse_partial' depends on axioms: [propext, Classical.choice, Quot.sound]
'Pscm.c32_string' depends on axioms: [propext, Quot.sound]
'Pscm.c33_trichotomy' depends on axioms: [propext, Quot.sound]
'Pscm.c33_transitive' depends on axioms: [propext, Quot.sound]
'Pscm.c33_lexicographic' depends on axioms: [propext, Classical.choice, Quot.sound]
'Pscm.c33_nul_counterexample' depends on axioms: [propext]
'Pscm.c34_order_partial' depends on axioms: [propext, Classical.choice, Quot.sound]
'Pscm.c34_eq' depends on axioms: [propext, Classical.choice, Quot.sound]
'Pscm.c34_eq_agrees_partial' depends on axioms: [propext, Classical.choice, Quot.sound]
'Pscm.c34_counterexample' depends on axioms: [propext]
'Pscm.c35_inverse' depends on axioms: [propext, Quot.sound]
'Pscm.c35_order' depends on axioms: [propext, Classical.choice, Quot.sound]
'Pscm.c35_case' depends on axioms: [propext, Quot.sound]
'Pscm.c35_classes' depends on axioms: [propext]
'Pscm.c36_inverse_partial' depends on axioms: [propext, Classical.choice, Quot.sound]
'Pscm.c36_eq' depends on axioms: [propext]
'Pscm.c36_nul_counterexample' depends on axioms: [propext]
'Pscm.c37_distinct_partial' depends on axioms: [propext, Classical.choice, Quot.sound]
'Pscm.c37_overflow' does not depend on any axioms
'Pscm.c37_forgeable' depends on axioms: [propext]
'Pscm.c38_reference' depends on axioms: [propext, Classical.choice, Quot.sound]
'Pscm.c38_wf' depends on axioms: [propext, Classical.choice, Quot.sound]
'Pscm.c38_operator_partial' depends on axioms: [propext, Classical.choice, Quot.sound]
'Pscm.c38_counterexample' depends on axioms: [propext, Classical.choice, Quot.sound]
'Pscm.c39_set' depends on axioms: [propext, Classical.choice, Quot.sound]
'Pscm.c39_set_module' depends on axioms: [propext, Classical.choice, Quot.sound]
'Pscm.c39_counterexample' depends on axioms: [propext, Classical.choice, Quot.sound]
'Pscm.c40_local_partial' depends on axioms: [propext, Classical.choice, Quot.sound]
'Pscm.c40_counterexample' depends on axioms: [propext, Classical.choice, Quot.sound]
'Pscm.c40_counterexample_module' depends on axioms: [propext, Classical.choice, Quot.sound]
'Pscm.c41_fuel' depends on axioms: [propext, Classical.choice, Quot.sound]
'Pscm.c41_deterministic' depends on axioms: [propext, Classical.choice, Quot.sound]
'Pscm.c42_if' depends on axioms: [propext, Classical.choice, Quot.sound]
'Pscm.c42_if_no_else' depends on axioms: [propext, Classical.choice, Quot.sound]
'Pscm.c43_and' depends on axioms: [propext, Classical.choice, Quot.sound]
'Pscm.c43_or' depends on axioms: [propext, Classical.choice, Quot.sound]
'Pscm.c44_begin' depends on axioms: [propext, Classical.choice, Quot.sound]
'Pscm.c44_compose' depends on axioms: [propext, Classical.choice, Quot.sound]
'Pscm.c45_call' depends on axioms: [propext, Classical.choice, Quot.sound]
'Pscm.c45_call_stop' depends on axioms: [propext, Classical.choice, Quot.sound]
'Pscm.c45_call_terminates' depends on axioms: [propext, Classical.choice, Quot.sound]
'Pscm.c45_operator' depends on axioms: [propext, Classical.choice, Quot.sound]
'Pscm.c45_call_reachable' depends on axioms: [propext, Classical.choice, Quot.sound]
'Pscm.c45_call_stop_reachable' depends on axioms: [propext, Classical.choice, Quot.sound]
'Pscm.c45_call_terminates_reachable' depends on axioms: [propext, Classical.choice, Quot.sound]
'Pscm.c46_count_partial' depends on axioms: [propext, Classical.choice, Quot.sound]
'Pscm.c46_error_partial' depends on axioms: [propext, Classical.choice, Quot.sound]
'Pscm.c46_counterexample' depends on axioms: [propext, Classical.choice, Quot.sound]
'Pscm.c47_arity' depends on axioms: [propext, Classical.choice, Quot.sound]
'Pscm.c47_enter' depends on axioms: [propext, Classical.choice, Quot.sound]
'Pscm.c48_let' depends on axioms: [propext, Classical.choice, Quot.sound]
'Pscm.c48_let_meaning' depends on axioms: [propext, Classical.choice, Quot.sound]
'Pscm.c48_let_star' depends on axioms: [propext, Classical.choice, Quot.sound]
'Pscm.c48_let_star_nil' depends on axioms: [propext, Classical.choice, Quot.sound]
'Pscm.c48_letrec' depends on axioms: [propext, Classical.choice, Quot.sound]
'Pscm.c48_let_reachable' depends on axioms: [propext, Classical.choice, Quot.sound]
'Pscm.c49_loop_nil_partial' depends on axioms: [propext, Classical.choice, Quot.sound]
'Pscm.c49_loop_partial' depends on axioms: [propext, Classical.choice, Quot.sound]
'Pscm.c49_loop_reachable_partial' depends on axioms: [propext, Classical.choice, Quot.sound]
'Pscm.c49_counterexample' depends on axioms: [propext, Classical.choice, Quot.sound]
'Pscm.c49_capture' depends on axioms: [propext, Classical.choice, Quot.sound]
'Pscm.c50_cond_partial' depends on axioms: [propext, Classical.choice, Quot.sound]
'Pscm.c50_counterexample' depends on axioms: [propext, Classical.choice, Quot.sound]
'Pscm.c51_case_partial' depends on axioms: [propext, Classical.choice, Quot.sound]
'Pscm.c51_key_fails' depends on axioms: [propext, Classical.choice, Quot.sound]
'Pscm.c52_do_partial' depends on axioms: [propext, Classical.choice, Quot.sound]
'Pscm.c52_do_reachable_partial' depends on axioms: [propext, Classical.choice, Quot.sound]
'Pscm.c52_init_stop' depends on axioms: [propext, Classical.choice, Quot.sound]
'Pscm.c52_overwrites' depends on axioms: [propext, Classical.choice, Quot.sound]
'Pscm.c52_nonboolean' depends on axioms: [propext, Classical.choice, Quot.sound]
'Pscm.c53_map' depends on axioms: [propext, Classical.choice, Quot.sound]
'Pscm.c53_map_not_procedure' depends on axioms: [propext, Classical.choice, Quot.sound]
'Pscm.c54_for_each_partial' depends on axioms: [propext, Classical.choice, Quot.sound]
'Pscm.c54_counterexample' depends on axioms: [propext, Classical.choice, Quot.sound]
'Pscm.c54_rest_counterexample' depends on axioms: [propext, Classical.choice, Quot.sound]
'Pscm.c55_apply_partial' depends on axioms: [propext, Classical.choice, Quot.sound]
'Pscm.c55_counterexample' depends on axioms: [propext, Classical.choice, Quot.sound]
'Pscm.c56_force_same' depends on axioms: [propext, Classical.choice, Quot.sound]
'Pscm.c56_first' depends on axioms: [propext, Classical.choice, Quot.sound]
'Pscm.c56_counterexample' depends on axioms: [propext, Classical.choice, Quot.sound]
'Pscm.c57_values' depends on axioms: [propext, Classical.choice, Quot.sound]
'Pscm.c57_single_partial' depends on axioms: [propext, Classical.choice, Quot.sound]
'Pscm.c57_counterexample' depends on axioms: [propext, Classical.choice, Quot.sound]
'Pscm.Ev.c58_plain_partial' depends on axioms: [propext, Classical.choice, Quot.sound]
'Pscm.Ev.c58_counterexample' depends on axioms: [propext, Classical.choice, Quot.sound]
'Pscm.Ev.c59_fill_partial' depends on axioms: [propext, Classical.choice, Quot.sound]
'Pscm.Ev.c59_splice_not_list' depends on axioms: [propext, Classical.choice, Quot.sound]
'Pscm.Ev.c59_counterexample' depends on axioms: [propext, Classical.choice, Quot.sound]
'Pscm.Ev.c59_improper_splice' depends on axioms: [propext, Classical.choice, Quot.sound]
'Pscm.Ev.c60_use_partial' depends on axioms: [propext, Classical.choice, Quot.sound]
'Pscm.Ev.c60_use_stop' depends on axioms: [propext, Classical.choice, Quot.sound]
'Pscm.Ev.c60_count_partial' depends on axioms: [propext, Classical.choice, Quot.sound]
'Pscm.Ev.c60_define_partial' depends on axioms: [propext, Classical.choice, Quot.sound]
'Pscm.Ev.c60_counterexample' depends on axioms: [propext, Classical.choice, Quot.sound]
'Pscm.Ev.c60_atom_counterexample' depends on axioms: [propext, Classical.choice, Quot.sound]
'Pscm.c61_throw_partial' depends on axioms: [propext, Classical.choice, Quot.sound]
'Pscm.c61_uncaught_partial' depends on axioms: [propext, Classical.choice, Quot.sound]
'Pscm.c61_target' depends on axioms: [propext, Classical.choice, Quot.sound]
'Pscm.c61_target_uncaught' depends on axioms: [propext, Classical.choice, Quot.sound]
'Pscm.c61_body' depends on axioms: [propext, Classical.choice, Quot.sound]
'Pscm.c61_catch_partial' depends on axioms: [propext, Classical.choice, Quot.sound]
'Pscm.c61_no_arguments_counterexample' depends on axioms: [propext, Classical.choice, Quot.sound]
'Pscm.c62_stack_partial' depends on axioms: [propext, Classical.choice, Quot.sound]
'Pscm.c62_returns_partial' depends on axioms: [propext, Classical.choice, Quot.sound]
'Pscm.c62_handled_partial' depends on axioms: [propext, Classical.choice, Quot.sound]
'Pscm.c62_stale_counterexample' depends on axioms: [propext, Classical.choice, Quot.sound]
'Pscm.c62_stale_ub_counterexample' depends on axioms: [propext, Classical.choice, Quot.sound]
'Pscm.c62_exhausted_counterexample' depends on axioms: [propext, Classical.choice, Quot.sound]
'Pscm.c63_dynamic_wind' depends on axioms: [propext, Classical.choice, Quot.sound]
'Pscm.c63_nested' depends on axioms: [propext, Classical.choice, Quot.sound]
'Pscm.c64_jump_partial' depends on axioms: [propext, Classical.choice, Quot.sound]
'Pscm.c64_order_counterexample' depends on axioms: [propext, Classical.choice, Quot.sound]
'Pscm.c64_common_counterexample' depends on axioms: [propext, Classical.choice, Quot.sound]
'Pscm.c65_out_skipped' depends on axioms: [propext, Classical.choice, Quot.sound]
'Pscm.c65_counterexample' depends on axioms: [propext, Classical.choice, Quot.sound]
'Pscm.c65_later_counterexample' depends on axioms: [propext, Classical.choice, Quot.sound]
'Pscm.c66_terminates' depends on axioms: [propext, Classical.choice, Quot.sound]
'Pscm.c66_in_bounds' depends on axioms: [propext, Classical.choice, Quot.sound]
'Pscm.c66_progress' depends on axioms: [propext, Classical.choice, Quot.sound]
'Pscm.c66_eof' depends on axioms: [propext, Classical.choice, Quot.sound]
'Pscm.c66_defined_partial' depends on axioms: [propext, Classical.choice, Quot.sound]
'Pscm.c66_overflow_counterexample' depends on axioms: [propext, Classical.choice, Quot.sound]
'Pscm.c66_program' depends on axioms: [propext, Classical.choice, Quot.sound]
'Pscm.c67_written_partial' depends on axioms: [propext, Classical.choice, Quot.sound]
'Pscm.c67_roundtrip_partial' depends on axioms: [propext, Classical.choice, Quot.sound]
'Pscm.c67_exact_partial' depends on axioms: [propext, Classical.choice, Quot.sound]
'Pscm.c67_counterexample' depends on axioms: [propext, Classical.choice, Quot.sound]
'Pscm.c68_string_partial' depends on axioms: [propext, Classical.choice, Quot.sound]
'Pscm.c68_counterexample' depends on axioms: [propext, Classical.choice, Quot.sound]
'Pscm.c69_blank' depends on axioms: [propext, Classical.choice, Quot.sound]
'Pscm.c69_list' depends on axioms: [propext, Classical.choice, Quot.sound]
'Pscm.c69_tokens' depends on axioms: [propext, Classical.choice, Quot.sound]
'Pscm.c69_quote_counterexample' depends on axioms: [propext, Classical.choice, Quot.sound]
'Pscm.c70_module_ref' depends on axioms: [propext, Classical.choice, Quot.sound]
'Pscm.c70_variable' depends on axioms: [propext, Classical.choice, Quot.sound]
'Pscm.c70_current' depends on axioms: [propext, Classical.choice, Quot.sound]
'Pscm.c70_use' depends on axioms: [propext, Classical.choice, Quot.sound]
'Pscm.c70_module_use' depends on axioms: [propext, Classical.choice, Quot.sound]
'Pscm.c71_hidden_partial' depends on axioms: [propext, Classical.choice, Quot.sound]
'Pscm.c71_shown_partial' depends on axioms: [propext, Classical.choice, Quot.sound]
'Pscm.c71_import_partial' depends on axioms: [propext, Quot.sound]
'Pscm.c71_snapshot' depends on axioms: [propext, Classical.choice, Quot.sound]
'Pscm.c71_counterexample_redefinition' depends on axioms: [propext, Classical.choice, Quot.sound]
'Pscm.c71_counterexample_early_export' depends on axioms: [propext, Classical.choice, Quot.sound]
'Pscm.c71_counterexample_no_export' depends on axioms: [propext, Classical.choice, Quot.sound]
'Pscm.c71_counterexample_interface_object' depends on axioms: [propext, Classical.choice, Quot.sound]
'Pscm.c71_counterexample_set' depends on axioms: [propext, Classical.choice, Quot.sound]
'Pscm.c72_define' depends on axioms: [propext, Classical.choice, Quot.sound]
'Pscm.c72_define_form' depends on axioms: [propext, Classical.choice, Quot.sound]
'Pscm.c73_bound_partial' depends on axioms: [propext, Classical.choice, Quot.sound]
'Pscm.c73_counterexample' depends on axioms: [propext, Classical.choice, Quot.sound]
'Pscm.c74_exact' depends on axioms: [propext, Classical.choice, Quot.sound]
'Pscm.c74_terminates' depends on axioms: [propext, Classical.choice, Quot.sound]
'Pscm.c74_completes' depends on axioms: [propext, Classical.choice, Quot.sound]
'Pscm.c74_stale_crash' depends on axioms: [propext, Quot.sound]
'Pscm.c74_start_crash' depends on axioms: [propext, Quot.sound]
'Pscm.c75_sweep_partial' depends on axioms: [propext, Classical.choice, Quot.sound]
'Pscm.c75_odd_size' depends on axioms: [propext, Quot.sound]
'Pscm.c76_alloc' depends on axioms: [propext, Classical.choice, Quot.sound]
'Pscm.c76_exhausted' depends on axioms: [propext, Classical.choice, Quot.sound]
'Pscm.gc_history' depends on axioms: [propext, Classical.choice, Quot.sound]
'Pscm.c77_history_partial' depends on axioms: [propext, Classical.choice, Quot.sound]
'Pscm.c77_frees' depends on axioms: [propext, Classical.choice, Quot.sound]
'Pscm.c77_odd_size' depends on axioms: [propext, Quot.sound]
'Pscm.c77_captured' depends on axioms: [propext, Quot.sound]
'Pscm.c77_smob' depends on axioms: [propext, Quot.sound]
'Pscm.c78_operations' depends on axioms: [propext, Quot.sound]
'Pscm.c78_read_all' depends on axioms: [propext, Quot.sound]
'Pscm.c78_peek' depends on axioms: [propext, Quot.sound]
'Pscm.c79_output_partial' depends on axioms: [propext, Classical.choice, Quot.sound]
'Pscm.c79_nul_counterexample' depends on axioms: [propext, Classical.choice, Quot.sound]
'Pscm.c79_overflow_counterexample' depends on axioms: [propext, Quot.sound]
'Pscm.c80_balanced_partial' depends on axioms: [propext, Classical.choice, Quot.sound]
'Pscm.c80_written_partial' depends on axioms: [propext, Classical.choice, Quot.sound]
'Pscm.c80_sequence_partial' depends on axioms: [propext, Classical.choice, Quot.sound]
'Pscm.c80_long_counterexample' depends on axioms: [propext, Classical.choice, Quot.sound]
'Pscm.c80_char_counterexample' depends on axioms: [propext, Classical.choice, Quot.sound]
'Pscm.c80_comment_counterexample' depends on axioms: [propext, Classical.choice, Quot.sound]
'Pscm.c80_adjacent_counterexample' depends on axioms: [propext, Classical.choice, Quot.sound]
'Pscm.c80_quote_counterexample' depends on axioms: [propext, Classical.choice, Quot.sound]
'Pscm.Misc.c81_box' depends on axioms: [propext, Classical.choice, Quot.sound]
'Pscm.Misc.c81_create' depends on axioms: [propext, Classical.choice, Quot.sound]
'Pscm.Misc.c81_not_variable' depends on axioms: [propext]
'Pscm.Misc.c82_types' depends on axioms: [propext, Classical.choice, Quot.sound]
'Pscm.Misc.c82_limit' depends on axioms: [propext, Classical.choice, Quot.sound]
'Pscm.Misc.c82_make' depends on axioms: [propext, Classical.choice, Quot.sound]
'Pscm.Misc.c82_data' depends on axioms: [propext, Classical.choice, Quot.sound]
'Pscm.Misc.c82_scheme' depends on axioms: [propext, Classical.choice, Quot.sound]
'Pscm.Misc.c82_overflow_counterexample' depends on axioms: [propext]
'Pscm.Misc.c83_copy_positions' depends on axioms: [propext]
'Pscm.Misc.c83_error_unchanged' depends on axioms: [propext]
'Pscm.Misc.c83_enable' depends on axioms: [propext, Classical.choice, Quot.sound]
'Pscm.Misc.c83_disable_partial' depends on axioms: [propext, Classical.choice, Quot.sound]
'Pscm.Misc.c83_restore' depends on axioms: [propext, Classical.choice, Quot.sound]
'Pscm.Misc.c83_set_keywords' depends on axioms: [propext, Classical.choice, Quot.sound]
'Pscm.Misc.c83_set_counterexample' depends on axioms: [propext]
'Pscm.Misc.c83_disable_counterexample' depends on axioms: [propext]
'Pscm.Misc.c83_keyword_counterexample' depends on axioms: [propext]
'Pscm.Ev.c84_usable' depends on axioms: [propext, Classical.choice, Quot.sound]
'Pscm.Ev.c84_no_escape' depends on axioms: [propext, Classical.choice, Quot.sound]
'Pscm.Ev.c84_catch_counterexample' depends on axioms: [propext, Classical.choice, Quot.sound]
'Pscm.Ev.c84_mixed_counterexample' depends on axioms: [propext, Classical.choice, Quot.sound]
'Pscm.Ev.c84_eval' depends on axioms: [propext, Classical.choice, Quot.sound]
'Pscm.c85_mul_exact' depends on axioms: [propext, Classical.choice, Quot.sound]
'Pscm.c85_ratio_add_aborts' depends on axioms: [propext]
'Pscm.c85_div_exact' depends on axioms: [propext, Classical.choice, Quot.sound]
'Pscm.c85_reciprocal' depends on axioms: [propext, Classical.choice, Quot.sound]
'Pscm.c86_encapsulation' depends on axioms: [propext, Classical.choice, Quot.sound]
'Pscm.c87_grammar' depends on axioms: [propext, Classical.choice, Quot.sound]
'Pscm.c87_whole' depends on axioms: [propext, Classical.choice, Quot.sound]
'Pscm.c87_counterexample' depends on axioms: [propext, Classical.choice, Quot.sound]
'Pscm.c88_threshold' depends on axioms: [propext, Classical.choice, Quot.sound]
'Pscm.c88_when' depends on axioms: [propext, Classical.choice, Quot.sound]
'Pscm.c88_bound' depends on axioms: [propext, Classical.choice, Quot.sound]
'Pscm.c89_initial' depends on axioms: [propext]
'Pscm.c89_scope' depends on axioms: [propext, Classical.choice, Quot.sound]
'Pscm.c89_reachable' depends on axioms: [propext, Classical.choice, Quot.sound]
'Pscm.c89_procedure' depends on axioms: [propext, Classical.choice, Quot.sound]
'Pscm.c90_load' depends on axioms: [propext, Classical.choice, Quot.sound]
'Pscm.c90_unreadable' depends on axioms: [propext, Classical.choice, Quot.sound]
'Pscm.c90_counterexample' depends on axioms: [propext, Classical.choice, Quot.sound]
'Pscm.c91_persists' depends on axioms: [propext, Classical.choice, Quot.sound]
'Pscm.c91_unique' depends on axioms: [propext, Classical.choice, Quot.sound]
'Pscm.c91_resolve' depends on axioms: [propext, Classical.choice, Quot.sound]
'Pscm.c91_registers' depends on axioms: [propext, Classical.choice, Quot.sound]
'Pscm.c91_once' depends on axioms: [propext, Classical.choice, Quot.sound]
'Pscm.c91_reenter' depends on axioms: [propext, Classical.choice, Quot.sound]
'Pscm.c91_enter' depends on axioms: [propext, Classical.choice, Quot.sound]
'Pscm.c91_counterexample' depends on axioms: [propext, Classical.choice, Quot.sound]
'Pscm.c92_variable' depends on axioms: [propext, Classical.choice, Quot.sound]
'Pscm.c92_module' depends on axioms: [propext, Classical.choice, Quot.sound]
'Pscm.c92_reference' depends on axioms: [propext, Classical.choice, Quot.sound]
'Pscm.c93_resolve' depends on axioms: [propext, Classical.choice, Quot.sound]
'Pscm.c93_use' depends on axioms: [propext, Classical.choice, Quot.sound]
'Pscm.c93_current' depends on axioms: [propext, Classical.choice, Quot.sound]
'Pscm.c93_set_current' depends on axioms: [propext, Classical.choice, Quot.sound]
'Pscm.c93_current_module' depends on axioms: [propext, Classical.choice, Quot.sound]
'Pscm.c93_module_p' depends on axioms: [propext, Classical.choice, Quot.sound]
'Pscm.c93_counterexample' depends on axioms: [propext, Classical.choice, Quot.sound]
'Pscm.c93_internal_counterexample' depends on axioms: [propext, Classical.choice, Quot.sound]
'Pscm.c94_options_partial' depends on axioms: [propext, Classical.choice, Quot.sound]
'Pscm.c94_counterexample_order' depends on axioms: [propext, Classical.choice, Quot.sound]
'Pscm.c94_counterexample_list' depends on axioms: [propext, Classical.choice, Quot.sound]
'Pscm.c95_expand1' depends on axioms: [propext, Classical.choice, Quot.sound]
'Pscm.c95_unchanged' depends on axioms: [propext, Classical.choice, Quot.sound]
'Pscm.c95_expand_partial' depends on axioms: [propext, Classical.choice, Quot.sound]
'Pscm.c95_agrees_partial' depends on axioms: [propext, Classical.choice, Quot.sound]
'Pscm.c95_counterexample' depends on axioms: [propext, Classical.choice, Quot.sound]
'Pscm.c96_defined' depends on axioms: [propext, Classical.choice, Quot.sound]
'Pscm.c96_counterexample' depends on axioms: [propext, Classical.choice, Quot.sound]
'Pscm.c97_callcc_partial' depends on axioms: [propext, Classical.choice, Quot.sound]
'Pscm.c98_call_partial' depends on axioms: [propext, Classical.choice, Quot.sound]
'Pscm.c98_unique' depends on axioms: [propext, Classical.choice, Quot.sound]
'Pscm.c98_apply' depends on axioms: [propext, Classical.choice, Quot.sound]
'Pscm.c98_not_procedure' depends on axioms: [propext, Classical.choice, Quot.sound]
'Pscm.c98_actual' depends on axioms: [propext, Classical.choice, Quot.sound]
'Pscm.c98_counterexample' depends on axioms: [propext, Classical.choice, Quot.sound]
'Pscm.c99_define_partial' depends on axioms: [propext, Classical.choice, Quot.sound]
'Pscm.c99_lookup' depends on axioms: [propext, Classical.choice, Quot.sound]
'Pscm.c99_module_lookup' depends on axioms: [propext, Classical.choice, Quot.sound]
'Pscm.c99_same_as_define' depends on axioms: [propext, Classical.choice, Quot.sound]
'Pscm.c99_counterexample' depends on axioms: [propext, Classical.choice, Quot.sound]
'Pscm.c100_required' depends on axioms: [propext, Classical.choice, Quot.sound]
'Pscm.c100_optional_partial' depends on axioms: [propext, Classical.choice, Quot.sound]
'Pscm.c100_counterexample' depends on axioms: [propext, Classical.choice, Quot.sound]
'Pscm.c101_each' depends on axioms: [propext, Classical.choice, Quot.sound]
'Pscm.c101_last_partial' depends on axioms: [propext, Classical.choice, Quot.sound]
'Pscm.c101_missing' depends on axioms: [propext, Classical.choice, Quot.sound]
'Pscm.c101_counterexample' depends on axioms: [propext, Classical.choice, Quot.sound]
'Pscm.c101_parse_counterexample' depends on axioms: [propext, Classical.choice, Quot.sound]
'Pscm.c102_classes' depends on axioms: [propext, Classical.choice, Quot.sound]
'Pscm.c102_disjoint' depends on axioms: [propext, Classical.choice, Quot.sound]
'Pscm.c102_numbers_partial' depends on axioms: [propext]
'Pscm.c102_not' depends on axioms: [propext]
'Pscm.c102_constructors' depends on axioms: [propext]
'Pscm.c102_counterexample' depends on axioms: [propext]
'Pscm.c103_file_input' depends on axioms: [propext, Classical.choice, Quot.sound]
'Pscm.c103_file_output_partial' depends on axioms: [propext, Classical.choice, Quot.sound]
'Pscm.c103_roundtrip_partial' depends on axioms: [propext, Classical.choice, Quot.sound]
'Pscm.c103_unflushed_counterexample' depends on axioms: [propext, Classical.choice, Quot.sound]
'Pscm.c103_nul_counterexample' depends on axioms: [propext, Classical.choice, Quot.sound]
'Pscm.c104_no_effect' depends on axioms: [propext, Classical.choice, Quot.sound]
'Pscm.c104_input' depends on axioms: [propext, Classical.choice, Quot.sound]
'Pscm.c104_output' depends on axioms: [propext, Classical.choice, Quot.sound]
'Pscm.c105_interleaving' depends on axioms: [propext, Classical.choice, Quot.sound]
'Pscm.c105_string_input' depends on axioms: [propext, Classical.choice, Quot.sound]
'Pscm.c105_string_output_partial' depends on axioms: [propext, Classical.choice, Quot.sound]
'Pscm.c106_start' depends on axioms: [propext, Classical.choice, Quot.sound]
'Pscm.c106_current' depends on axioms: [propext, Classical.choice, Quot.sound]
'Pscm.c106_set' depends on axioms: [propext, Classical.choice, Quot.sound]
'Pscm.c106_counterexample' depends on axioms: [propext, Classical.choice, Quot.sound]
'Pscm.c106_closed_counterexample' depends on axioms: [propext, Classical.choice, Quot.sound]
'Pscm.c106_input_counterexample' depends on axioms: [propext, Classical.choice, Quot.sound]
'Pscm.c107_make' depends on axioms: [propext, Classical.choice, Quot.sound]
'Pscm.c107_output_partial' depends on axioms: [propext, Classical.choice, Quot.sound]
'Pscm.c107_input_partial' depends on axioms: [propext, Classical.choice, Quot.sound]
'Pscm.c107_display_counterexample' depends on axioms: [propext, Classical.choice, Quot.sound]
'Pscm.c107_both_counterexample' depends on axioms: [propext, Classical.choice, Quot.sound]
'Pscm.c107_peek_counterexample' depends on axioms: [propext, Classical.choice, Quot.sound]
'Pscm.c108_defined_partial' depends on axioms: [propext, Classical.choice, Quot.sound]
'Pscm.c109_arguments' depends on axioms: [propext, Classical.choice, Quot.sound]
'Pscm.c109_input_file' depends on axioms: [propext, Classical.choice, Quot.sound]
'Pscm.c109_output_file_partial' depends on axioms: [propext, Classical.choice, Quot.sound]
'Pscm.c109_input_string' depends on axioms: [propext, Classical.choice, Quot.sound]
'Pscm.c109_output_string_partial' depends on axioms: [propext, Classical.choice, Quot.sound]
'Pscm.c109_error_counterexample' depends on axioms: [propext, Classical.choice, Quot.sound]
'Pscm.Dbg.c110_error_unchanged' depends on axioms: [propext]
'Pscm.Dbg.c110_restore' depends on axioms: [propext, Quot.sound]
'Pscm.Dbg.c110_enable' depends on axioms: [propext, Quot.sound]
'Pscm.Dbg.c110_disable_partial' depends on axioms: [propext, Quot.sound]
'Pscm.Dbg.c110_set_int' depends on axioms: [propext, Quot.sound]
'Pscm.Dbg.c110_set_file' depends on axioms: [propext, Quot.sound]
'Pscm.Dbg.c110_names' depends on axioms: [propext]
'Pscm.Dbg.c110_set_counterexample' depends on axioms: [propext]
'Pscm.Dbg.c110_disable_counterexample' depends on axioms: [propext]
'Pscm.Repl.c111_complete' depends on axioms: [propext, Classical.choice, Quot.sound]
'Pscm.Repl.c111_session_partial' depends on axioms: [propext, Classical.choice, Quot.sound]
'Pscm.Repl.c111_multiline' depends on axioms: [propext, Classical.choice, Quot.sound]
'Pscm.Repl.c111_data_partial' depends on axioms: [propext, Classical.choice, Quot.sound]
'Pscm.Repl.c111_ends' depends on axioms: [propext, Classical.choice, Quot.sound]
'Pscm.Repl.c111_stuck_counterexample' depends on axioms: [propext, Classical.choice, Quot.sound]
'Pscm.Repl.c111_counterexample' depends on axioms: [propext, Classical.choice, Quot.sound]
'Pscm.Repl.c111_nul_counterexample' depends on axioms: [propext, Classical.choice, Quot.sound]
'Pscm.Cli.c112_file' depends on axioms: [propext, Classical.choice, Quot.sound]
'Pscm.Cli.c112_help' depends on axioms: [propext, Classical.choice, Quot.sound]
'Pscm.Cli.c112_duplicate' depends on axioms: [propext, Classical.choice, Quot.sound]
'Pscm.Cli.c112_missing' depends on axioms: [propext, Classical.choice, Quot.sound]
'Pscm.Cli.c112_run' does not depend on any axioms
'Pscm.Cli.c112_unreadable' does not depend on any axioms
'Pscm.Cli.c112_exit_partial' depends on axioms: [propext, Classical.choice, Quot.sound]
'Pscm.Cli.c112_error_counterexample' does not depend on any axioms
'Pscm.Cli.c112_version_counterexample' does not depend on any axioms
'Pscm.Cli.c112_exit_counterexample' does not depend on any axioms
'Pscm.Thr.c113_message_partial' depends on axioms: [propext, Classical.choice, Quot.sound]
'Pscm.Thr.c113_defined' depends on axioms: [propext, Classical.choice, Quot.sound]
'Pscm.Thr.c113_counterexample' depends on axioms: [propext, Classical.choice, Quot.sound]
'Pscm.Thr.c114_transparent_partial' depends on axioms: [propext, Quot.sound]
'Pscm.Thr.c114_balanced' depends on axioms: [propext, Quot.sound]
'Pscm.Thr.c114_counterexample' depends on axioms: [propext]
'Pscm.Thr.c114_leak_counterexample' depends on axioms: [propext, Quot.sound]
'Pscm.c115_fold' depends on axioms: [propext, Classical.choice, Quot.sound]
'Pscm.c115_fold_stop' depends on axioms: [propext, Classical.choice, Quot.sound]
'Pscm.c115_sum' depends on axioms: [propext, Classical.choice, Quot.sound]
'Pscm.c115_product' depends on axioms: [propext, Classical.choice, Quot.sound]
'Pscm.Loc.c116_read' depends on axioms: [propext, Classical.choice, Quot.sound]
'Pscm.Loc.c116_expansion_partial' depends on axioms: [propext, Classical.choice, Quot.sound]
'Pscm.Loc.c116_shared_fails' depends on axioms: [propext, Classical.choice, Quot.sound]
'Pscm.Loc.c116_counterexample' depends on axioms: [propext, Classical.choice, Quot.sound]
'Pscm.Loc.c117_position' depends on axioms: [propext, Classical.choice, Quot.sound]
'Pscm.Loc.c117_position_lost' depends on axioms: [propext, Classical.choice, Quot.sound]
'Pscm.Loc.c117_position_short' depends on axioms: [propext, Classical.choice, Quot.sound]
'Pscm.Loc.c117_error' depends on axioms: [propext, Classical.choice, Quot.sound]
'Pscm.Loc.c117_type_error' depends on axioms: [propext, Classical.choice, Quot.sound]
'Pscm.Loc.c118_text' depends on axioms: [propext, Classical.choice, Quot.sound]
'Pscm.Loc.c118_report_partial' depends on axioms: [propext, Classical.choice, Quot.sound]
'Pscm.Loc.c118_shown' depends on axioms: [propext, Quot.sound]
'Pscm.Loc.c118_stale' depends on axioms: [propext, Classical.choice, Quot.sound]
'Pscm.Loc.c118_deep' depends on axioms: [propext, Classical.choice, Quot.sound]
'Pscm.Loc.c118_unlocated' depends on axioms: [propext, Classical.choice, Quot.sound]
'Pscm.c119_if_partial' depends on axioms: [propext, Classical.choice, Quot.sound]
'Pscm.c119_call_nests' depends on axioms: [propext, Classical.choice, Quot.sound]
'Pscm.c119_linear' depends on axioms: [propext, Classical.choice, Quot.sound]
'Pscm.c119_runs' depends on axioms: [propext, Classical.choice, Quot.sound]
'Pscm.Code.c120_unchanged_partial' depends on axioms: [propext, Classical.choice, Quot.sound]
'Pscm.Code.c120_overwritten' depends on axioms: [propext, Classical.choice, Quot.sound]
'Pscm.Code.c120_counterexample' depends on axioms: [propext]
'Pscm.Smb.c121_tags' depends on axioms: [propext, Classical.choice, Quot.sound]
'Pscm.Smb.c121_equal' depends on axioms: [propext, Classical.choice, Quot.sound]
'Pscm.Smb.c121_print' depends on axioms: [propext, Classical.choice, Quot.sound]
'Pscm.Smb.c121_apply_partial' depends on axioms: [propext, Classical.choice, Quot.sound]
'Pscm.Smb.c121_variable_fails' depends on axioms: [propext]
'Pscm.Msr.c122_bound' depends on axioms: [propext, Quot.sound]
'Pscm.Msr.c122_binder' depends on axioms: [propext, Classical.choice, Quot.sound]
'Pscm.Msr.c122_nested' depends on axioms: [propext]
'Pscm.Msr.c122_terminates' depends on axioms: [propext, Quot.sound]
'Pscm.Msr.c122_guard_partial' depends on axioms: [propext]
'Pscm.Msr.c122_error_fails' depends on axioms: [propext, Quot.sound]
'Pscm.Msr.c123_unlisted' depends on axioms: [propext, Classical.choice, Quot.sound]
'Pscm.Msr.c123_loads' depends on axioms: [propext, Classical.choice, Quot.sound]
'Pscm.Msr.c123_failed' depends on axioms: [propext, Classical.choice, Quot.sound]
'Pscm.Msr.c123_option_partial' depends on axioms: [propext, Classical.choice, Quot.sound]
'Pscm.Msr.c123_option_fails' depends on axioms: [propext, Classical.choice, Quot.sound]
'Pscm.Rp.c124_lines_partial' depends on axioms: [propext, Classical.choice, Quot.sound]
'Pscm.Rp.c124_columns_partial' depends on axioms: [propext, Classical.choice, Quot.sound]
'Pscm.Rp.c124_datum' depends on axioms: [propext, Classical.choice, Quot.sound]
'Pscm.Rp.c124_own' depends on axioms: [propext, Classical.choice, Quot.sound]
'Pscm.Rp.c124_lines_counterexample' depends on axioms: [propext, Classical.choice, Quot.sound]
'Pscm.Rp.c124_columns_counterexample' depends on axioms: [propext, Classical.choice, Quot.sound]
'Pscm.Rp.c124_shared_counterexample' depends on axioms: [propext, Classical.choice, Quot.sound]
'Pscm.Rp.c125_lines' depends on axioms: [propext, Classical.choice, Quot.sound]
'Pscm.Rp.c125_error_partial' depends on axioms: [propext, Classical.choice, Quot.sound]
'Pscm.Rp.c125_column' depends on axioms: [propext, Quot.sound]
'Pscm.Rp.c125_head_partial' depends on axioms: [propext, Classical.choice, Quot.sound]
'Pscm.Rp.c125_caret_fails' depends on axioms: [propext, Quot.sound]
'Pscm.Rp.c125_frame_caret_fails' depends on axioms: [propext, Classical.choice, Quot.sound]
'Pscm.Rp.c125_more_counterexample' depends on axioms: [propext, Classical.choice, Quot.sound]
'Pscm.Rp.c126_balanced_partial' depends on axioms: [propext, Classical.choice, Quot.sound]
'Pscm.Rp.c126_unfinished_partial' depends on axioms: [propext, Classical.choice, Quot.sound]
'Pscm.Rp.c126_shown' depends on axioms: [propext, Classical.choice, Quot.sound]
'Pscm.Rp.c126_leak' depends on axioms: [propext, Classical.choice, Quot.sound]
'Pscm.Rp.c126_hidden_counterexample' depends on axioms: [propext, Classical.choice, Quot.sound]
'Pscm.Rp.c126_finished_counterexample' depends on axioms: [propext, Classical.choice, Quot.sound]
'Pscm.Rp.c126_popped_counterexample' depends on axioms: [propext, Classical.choice, Quot.sound]
'Pscm.Rp.c126_stale_counterexample' depends on axioms: [propext, Classical.choice, Quot.sound]
'Pscm.Cm.c127_resume_partial' depends on axioms: [propext, Quot.sound]
'Pscm.Cm.c127_safe' depends on axioms: [propext, Quot.sound]
'Pscm.Cm.c127_words' depends on axioms: [propext, Quot.sound]
'Pscm.Cm.c127_base' depends on axioms: [propext, Quot.sound]
'Pscm.Cm.c127_negative_fails' depends on axioms: [propext, Quot.sound]
'Pscm.Cm.c127_unset_fails' depends on axioms: [propext, Quot.sound]
'Pscm.Cm.c127_host_counterexample' depends on axioms: [propext, Quot.sound]
'Pscm.Re.c128_fresh_partial' depends on axioms: [propext, Quot.sound]
'Pscm.Re.c128_two' depends on axioms: [propext, Quot.sound]
'Pscm.Re.c128_backtracking' depends on axioms: [propext, Quot.sound]
'Pscm.Re.c128_stale_fails' depends on axioms: [propext, Classical.choice, Quot.sound]
'Pscm.Re.c128_counterexample' depends on axioms: [propext, Quot.sound]
'Pscm.Re.c129_bindings_partial' depends on axioms: [propext, Classical.choice, Quot.sound]
'Pscm.Re.c129_shared_fails' depends on axioms: [propext]
'Pscm.Re.c129_order_counterexample' depends on axioms: [propext, Quot.sound]
'Pscm.Re.c129_assign_counterexample' depends on axioms: [propext]
'Pscm.Re.c130_once_partial' depends on axioms: [propext, Classical.choice, Quot.sound]
'Pscm.Re.c130_next' depends on axioms: [propext, Quot.sound]
'Pscm.Re.c130_after_fails' depends on axioms: [propext]
'Pscm.Re.c130_skip_counterexample' depends on axioms: [propext]
'Pscm.Lst.c131_roundtrip' depends on axioms: [propext, Quot.sound]
'Pscm.Lst.c131_terminated' depends on axioms: [propext, Quot.sound]
'Pscm.Lst.c131_out' depends on axioms: [propext]
'Pscm.Lst.c131_truncated_fails' depends on axioms: [propext, Quot.sound]
'Pscm.Lst.c131_long_fails' depends on axioms: [propext, Quot.sound]
'Pscm.Itr.c132_fold' depends on axioms: [propext, Classical.choice, Quot.sound]
'Pscm.Itr.c132_static' depends on axioms: [propext, Classical.choice, Quot.sound]
'Pscm.Itr.c132_current_partial' depends on axioms: [propext, Classical.choice, Quot.sound]
'Pscm.Itr.c132_module_map' depends on axioms: [propext, Classical.choice, Quot.sound]
'Pscm.Itr.c132_stale_counterexample' depends on axioms: [propext]
'Pscm.c133_last' depends on axioms: [propext, Classical.choice, Quot.sound]
'Pscm.c133_safe' depends on axioms: [propext, Classical.choice, Quot.sound]
'Pscm.c133_kept' depends on axioms: [propext, Classical.choice, Quot.sound]
'Pscm.c133_dangling' depends on axioms: [propext, Classical.choice, Quot.sound]
'Pscm.c133_leak' depends on axioms: [propext, Classical.choice, Quot.sound]
'Pscm.c133_eval_null' depends on axioms: [propext, Classical.choice, Quot.sound]
'Pscm.c133_uncaught' depends on axioms: [propext, Classical.choice, Quot.sound]
'Pscm.c133_stale_counterexample' depends on axioms: [propext, Classical.choice, Quot.sound]
'Pscm.c133_file_counterexample' depends on axioms: [propext, Classical.choice, Quot.sound]
'Pscm.c134_call_partial' depends on axioms: [propext, Quot.sound]
'Pscm.c134_error_fails' depends on axioms: [propext, Quot.sound]
'Pscm.c134_not_module' depends on axioms: [propext, Quot.sound]
'Pscm.c134_define_module_partial' depends on axioms: [propext, Classical.choice, Quot.sound]
'Pscm.c134_define_module_fails' depends on axioms: [propext, Classical.choice, Quot.sound]
'Pscm.c134_use' depends on axioms: [propext, Classical.choice, Quot.sound]
'Pscm.c134_import' depends on axioms: [propext, Classical.choice, Quot.sound]
'Pscm.c134_name_error' depends on axioms: [propext, Classical.choice, Quot.sound]
'Pscm.c135_bound' depends on axioms: [propext, Classical.choice, Quot.sound]
'Pscm.c135_macros' depends on axioms: [propext, Classical.choice, Quot.sound]
'Pscm.c135_entered_partial' depends on axioms: [propext, Classical.choice, Quot.sound]
'Pscm.c135_current_module_fails' depends on axioms: [propext]
'Pscm.c135_arity' depends on axioms: [propext, Classical.choice, Quot.sound]
'Pscm.SmS.c136_data' depends on axioms: [propext, Quot.sound]
'Pscm.SmS.c136_types' depends on axioms: [propext, Quot.sound]
'Pscm.SmS.c136_errors' depends on axioms: [propext, Quot.sound]
'Pscm.SmS.c136_tag_overflow' depends on axioms: [propext, Quot.sound]
'Pscm.c137_kept' depends on axioms: [propext, Classical.choice, Quot.sound]
'Pscm.c137_registered' depends on axioms: [propext, Classical.choice, Quot.sound]
'Pscm.c137_host_fails' depends on axioms: [propext, Classical.choice, Quot.sound]
'Pscm.c137_options_fail' depends on axioms: [propext, Quot.sound]
'Pscm.Gc.Demo.c137_host_counterexample' depends on axioms: [propext, Quot.sound]
'Pscm.c138_value_partial' depends on axioms: [propext, Classical.choice, Quot.sound]
'Pscm.c138_error_partial' depends on axioms: [propext, Classical.choice, Quot.sound]
'Pscm.c138_redefine_fails' depends on axioms: [propext, Classical.choice, Quot.sound]
'Pscm.c138_call_datum_fails' depends on axioms: [propext, Classical.choice, Quot.sound]
'Pscm.c138_factorial' depends on axioms: [propext, Classical.choice, Quot.sound]
'Pscm.c138_flip' depends on axioms: [propext, Classical.choice, Quot.sound]
'Pscm.c138_unique' depends on axioms: [propext, Classical.choice, Quot.sound]
'Pscm.c145_value_partial' depends on axioms: [propext, Classical.choice, Quot.sound]
'Pscm.c145_error_partial' depends on axioms: [propext, Classical.choice, Quot.sound]
'Pscm.c139_use' depends on axioms: [propext, Classical.choice, Quot.sound]
'Pscm.c139_value' depends on axioms: [propext, Classical.choice, Quot.sound]
'Pscm.c139_error' depends on axioms: [propext, Classical.choice, Quot.sound]
'Pscm.c139_read' depends on axioms: [propext, Classical.choice, Quot.sound]
'Pscm.c139_debug' depends on axioms: [propext, Classical.choice, Quot.sound]
'Pscm.c139_read_error' depends on axioms: [propext, Classical.choice, Quot.sound]
'Pscm.c139_debug_error' depends on axioms: [propext, Classical.choice, Quot.sound]
'Pscm.c139_session' depends on axioms: [propext, Classical.choice, Quot.sound]
'Pscm.c140_script_partial' depends on axioms: [propext, Classical.choice, Quot.sound]
'Pscm.c140_error_partial' depends on axioms: [propext, Classical.choice, Quot.sound]
'Pscm.c140_empty_fails' depends on axioms: [propext, Classical.choice, Quot.sound]
'Pscm.c140_session_partial' depends on axioms: [propext, Classical.choice, Quot.sound]
'Pscm.c140_session_error_partial' depends on axioms: [propext, Classical.choice, Quot.sound]
'Pscm.c140_session_empty' depends on axioms: [propext, Classical.choice, Quot.sound]
'Pscm.c140_text' depends on axioms: [propext, Classical.choice, Quot.sound]
'Pscm.c140_readback' depends on axioms: [propext, Classical.choice, Quot.sound]
'Pscm.c141_values_partial' depends on axioms: [propext, Classical.choice, Quot.sound]
'Pscm.c141_error_partial' depends on axioms: [propext, Classical.choice, Quot.sound]
'Pscm.c141_split' depends on axioms: [propext, Classical.choice, Quot.sound]
'Pscm.c141_empty_fails' depends on axioms: [propext, Classical.choice, Quot.sound]
'Pscm.c142_script_partial' depends on axioms: [propext, Classical.choice, Quot.sound]
'Pscm.c142_display_list_fails' depends on axioms: [propext, Classical.choice, Quot.sound]
'Pscm.c143_session_partial' depends on axioms: [propext, Classical.choice, Quot.sound]
'Pscm.c144_file_partial' depends on axioms: [propext, Classical.choice, Quot.sound]
'Pscm.c144_string_partial' depends on axioms: [propext, Classical.choice, Quot.sound]
'Pscm.c144_fallback' depends on axioms: [propext, Classical.choice, Quot.sound]
'Pscm.c144_closed_fails' depends on axioms: [propext, Classical.choice, Quot.sound]
'Pscm.c144_quit' depends on axioms: [propext, Classical.choice, Quot.sound]
'Pscm.c145_eval' depends on axioms: [propext, Classical.choice, Quot.sound]
'Pscm.c145_quoted' depends on axioms: [propext, Classical.choice, Quot.sound]
'Pscm.c145_anywhere' depends on axioms: [propext, Classical.choice, Quot.sound]
'Pscm.c145_program' depends on axioms: [propext, Classical.choice, Quot.sound]
'Pscm.c145_forms' depends on axioms: [propext, Classical.choice, Quot.sound]
'Pscm.c145_count' depends on axioms: [propext, Classical.choice, Quot.sound]
'Pscm.c145_not_local' depends on axioms: [propext, Classical.choice, Quot.sound]
'Pscm.c146_name' depends on axioms: [propext, Classical.choice, Quot.sound]
'Pscm.c146_stable' depends on axioms: [propext, Classical.choice, Quot.sound]
'Pscm.c146_print' depends on axioms: [propext]
'Pscm.c146_builtin_fails' depends on axioms: [propext, Quot.sound]
'Pscm.c147_value_partial' depends on axioms: [propext, Classical.choice, Quot.sound]
'Pscm.c147_error_partial' depends on axioms: [propext, Classical.choice, Quot.sound]
'Pscm.c147_default_partial' depends on axioms: [propext, Classical.choice, Quot.sound]
'Pscm.c148_value_partial' depends on axioms: [propext, Classical.choice, Quot.sound]
'Pscm.c148_error_partial' depends on axioms: [propext, Classical.choice, Quot.sound]
'Pscm.c148_program_partial' depends on axioms: [propext, Classical.choice, Quot.sound]
'Pscm.c149_value_partial' depends on axioms: [propext, Classical.choice, Quot.sound]
'Pscm.c149_error_partial' depends on axioms: [propext, Classical.choice, Quot.sound]
'Pscm.c149_program_partial' depends on axioms: [propext, Classical.choice, Quot.sound]
'Pscm.c150_value_partial' depends on axioms: [propext, Classical.choice, Quot.sound]
'Pscm.c150_error_partial' depends on axioms: [propext, Classical.choice, Quot.sound]
'Pscm.c150_program_partial' depends on axioms: [propext, Classical.choice, Quot.sound]
'Pscm.c150_program_error_partial' depends on axioms: [propext, Classical.choice, Quot.sound]
'Pscm.c151_set_car_partial' depends on axioms: [propext, Quot.sound]
'Pscm.c151_set_cdr_partial' depends on axioms: [propext, Quot.sound]
'Pscm.c151_circular_partial' depends on axioms: [propext, Quot.sound]
'Pscm.c152_remove_partial' depends on axioms: [propext, Classical.choice, Quot.sound]
'Pscm.c152_set_partial' depends on axioms: [propext, Classical.choice, Quot.sound]
'Pscm.c152_assq_set_partial' depends on axioms: [propext, Classical.choice, Quot.sound]
'Pscm.c152_ref_partial' depends on axioms: [propext, Classical.choice, Quot.sound]
'Pscm.c152_list_head_partial' depends on axioms: [propext, Classical.choice, Quot.sound]
'Pscm.c153_string_set_partial' depends on axioms: [propext, Classical.choice, Quot.sound]
