c('C01','proved','c01_plus c01_times c01_minus','both directions: exact when no running result overflows, undefined behaviour otherwise')
c('C02','proved','c02_division c02_edges','all pairs, including zero divisor and the single overflowing pair')
c('C03','proved','c03_gcd c03_gcd_ub c03_lcm','lcm under the hypothesis that prefix lcms fit in 64 bits')
c('C04','proved','c04_div c04_div_zero c04_div_unary','exact integer arguments; float arguments are not covered')
c('C05','proved','c05_compare c05_mixed')
c('C06','partial','c06_parity_partial c06_parity_large c06_counterexample','FALSE of the code above 2^53: the argument goes through double; counterexample proved; holds up to 2^53')
c('C07','partial','c07_max_min_partial c07_counterexample c07_mixed c07_not_number','FALSE of the code above 2^53 (through double); counterexample proved; holds up to 2^53')
c('C08','proved','c08_expt c08_expt_negative')
c('C09','proved','c09_abs c09_sign')
c('C85','partial','c85_mul_exact c85_ratio_add_aborts c85_div_exact c85_reciprocal','FALSE for + - and comparisons: a ratio operand trips an assert; * and / are exact and canonical')
c('C11','partial','c11_cons_partial c11_cdr_not_eq c11_circular_counterexample c11_flagged_counterexample c11_cxr_partial c11_cadr_counterexample','FALSE in full: cons diverges on a circular cdr and mis-cdrs onto a flagged head node (both proved); holds for unflagged acyclic lists, nil and atoms')
c('C12','proved','c12_set_car c12_set_cdr c12_non_pair')
c('C13','partial','c13_length_partial c13_length_non_list c13_length_improper c13_counterexample','proper lists exact; improper lists are counted instead of rejected (counterexample)')
c('C14','partial','c14_reverse_partial c14_reverse_twice c14_counterexample','proper lists; improper lists are reversed instead of rejected (counterexample)')
c('C15','partial','c15_append_partial c15_append_improper c15_counterexample','FALSE for a final improper argument with two or more cars: middle elements dropped (counterexample)')
c('C16','proved','c16_list_ref c16_list_tail c16_list_head c16_head_tail')
c('C17','partial','c17_actual c17_last_pair_partial c17_counterexample','FALSE for odd lengths >= 3 (c17_actual characterises the result for every length)')
c('C18','partial','c18_memq c18_member_partial c18_memv_partial c18_counterexample','memq full; member on data with canonical lists; memv does not find symbols (counterexample)')
c('C19','partial','c19_list_p_partial c19_counterexample','FALSE beyond 10001 nodes: list? answers #f (counterexample)')
c('C20','proved','c20_equal c20_equivalence')
c('C21','proved','c21_chain c21_strict')
c('C22','partial','c22_agree_partial c22_counterexample c22_error','FALSE with dotted pairs in both directions (counterexample); agrees on data with proper undotted lists')
c('C23','partial','c23_assq c23_assoc_partial','assq full; assoc/assv on keys that are data with canonical lists (they use the legacy equality of C22)')
c('C24','partial','c24_assq_set c24_assoc_set_partial c24_counterexample c24_acons','FALSE of the ref procedures: assoc-ref returns the wrong part of a list value (counterexample); the entry found by assq/assoc afterwards is the stored one')
c('C25','partial','c25_remove_partial c25_counterexample','FALSE with duplicate keys: only the first entry is removed (counterexample)')
c('C29','proved','c29_ref c29_set c29_non_vector c29_history c29_make c29_length')
c('C30','partial','c30_vector_to_list_partial c30_list_to_vector c30_inverse_partial c30_counterexample','holds below 2^31 elements; above, the int loop counter overflows (counterexample)')
c('C26','partial','c26_hashq c26_hashv c26_hash_partial c26_counterexample c26_handle_counterexample','every history, per family, for the key comparison the family implements; FALSE for the Scheme equivalences (hashv does not find eqv? symbols, hashq does not find eq? integers) and when a handle is given a list by set-cdr! (counterexamples)')
c('C27','partial','c27_hashq c27_hashv c27_hash_partial c27_counterexample','hashq/hashv: all keys; hash: integers, strings, symbols, (), booleans, proper lists; FALSE for characters (counterexample)')
c('C28','proved','c28_counts c26_hash_partial','hashq/hashv all histories; hash- tables in c26_hash_partial for its keys')
c('C10','partial','Pscm.c10_print_partial Pscm.c10_read Pscm.c10_roundtrip_partial Pscm.c10_min_undefined Pscm.c10_bad_radix c10_ratio','All 64-bit integers but -2^63 (proved undefined), all radices 2..36; out-of-range numerals are proved to saturate.')
c('C31','partial','Pscm.c31_ref Pscm.c31_set Pscm.c31_substring Pscm.c31_non_string Pscm.c31_history Pscm.c31_make_partial Pscm.c31_make_huge c31_length','Accessors complete; make-string of 2^31 or more characters is proved undefined.')
c('C32','partial','Pscm.c32_append_partial Pscm.c32_append_error Pscm.c32_length Pscm.c32_string_to_list Pscm.c32_list_to_string_partial Pscm.c32_list_to_string_error Pscm.c32_inverse_partial Pscm.c32_string','Partial only in the int length limit (results below 2^31-1 bytes).')
c('C33','proved','Pscm.c33_trichotomy Pscm.c33_transitive Pscm.c33_lexicographic Pscm.c33_nul_counterexample','Total preorder for all strings; bytewise lexicographic on NUL-free strings; string=? ignores bytes after a NUL (witness).')
c('C34','partial','Pscm.c34_order_partial Pscm.c34_eq Pscm.c34_eq_agrees_partial Pscm.c34_counterexample','Ordering agrees for 7-bit NUL-free strings; false for bytes >= 128 (signed char comparison), witness proved.')
c('C35','proved','Pscm.c35_inverse Pscm.c35_order Pscm.c35_case c35_classes','')
c('C36','partial','Pscm.c36_inverse_partial Pscm.c36_eq Pscm.c36_nul_counterexample','Names below 2^31-1 bytes; eq? exact for NUL-free names, NUL witness proved.')
c('C37','partial','Pscm.c37_distinct_partial Pscm.c37_overflow Pscm.c37_forgeable','Histories of fewer than 2^31 calls; the 2^31-th call is proved undefined.')
c('C38','partial','c38_reference c38_wf c38_operator_partial c38_counterexample','Variable references: complete. Operator position: proved in the root module without macros of that name; FALSE in other modules, where the module binding wins over enclosing frames (counterexample)')
c('C39','partial','c39_set c39_set_module c39_counterexample','Lexical bindings complete; module bindings through the current module; FALSE for a procedure of a module called while another module is current (counterexample)')
c('C40','partial','c40_local_partial c40_counterexample c40_counterexample_module','(define x e) in a body without module pointer is local; FALSE for (define (f) ...) and for bodies of module files (counterexamples)')
c('C41','proved','c41_fuel c41_deterministic')
c('C42','proved','c42_if c42_if_no_else')
c('C43','proved','c43_and c43_or')
c('C44','proved','c44_begin c44_compose')
c('C47','proved','c47_arity c47_enter')
c('C50','partial','c50_cond_partial c50_counterexample','All clause forms except a test-only clause, which returns #t instead of the test value (counterexample)')
c('C51','partial','c51_case_partial c51_key_fails','Keys and data that are numbers, characters, symbols, booleans or (); compound data compare structurally in the code')
c('C45','proved','c45_call c45_call_stop c45_call_terminates c45_operator c45_call_reachable c45_call_stop_reachable c45_call_terminates_reachable','Arbitrary argument expressions, in every reachable state; hypothesis: builtins do not invent environment references')
c('C46','partial','c46_count_partial c46_error_partial c46_counterexample','Procedures without rest parameter; FALSE with one: too few arguments leave parameters unbound silently (counterexample)')
c('C48','proved','c48_let c48_let_meaning c48_let_star c48_let_star_nil c48_letrec c48_let_reachable')
c('C49','partial','c49_loop_nil_partial c49_loop_partial c49_loop_reachable_partial c49_counterexample c49_capture','Single body expression, names __temp_i unused; FALSE for longer bodies: only the first expression is kept (counterexample); temporaries capture (counterexample)')
c('C52','partial','c52_do_partial c52_do_reachable_partial c52_init_stop c52_overwrites c52_nonboolean','Loop variables not bound in an enclosing frame, boolean tests; FALSE otherwise: enclosing variables are overwritten, a true non-#t test is a type error (counterexamples)')
c('C86','proved','c86_encapsulation')
c('C53','proved','c53_map c53_map_not_procedure')
c('C54','partial','c54_for_each_partial c54_counterexample c54_rest_counterexample','Lists of equal length with no () element, procedure with exactly as many parameters as lists; FALSE otherwise: iteration stops at a () element, a rest-parameter procedure receives only the first list (counterexamples)')
c('C55','partial','c55_apply_partial c55_counterexample','Leading values self-evaluating; FALSE otherwise: leading values are evaluated twice (counterexample)')
c('C56','partial','c56_force_same c56_first c56_counterexample','Same value for ever: proved; evaluated once when forcing does not force the same promise; FALSE under re-entrant force: the expression runs twice (counterexample)')
c('C57','partial','c57_values c57_single_partial c57_counterexample','Multiple values and a single non-list value: proved; FALSE for a single list value: it is spread (counterexample)')
c('C58','partial','c58_plain_partial c58_counterexample','Well-formed templates; FALSE for an inner splice followed by a dotted tail (counterexample)')
c('C59','partial','c59_fill_partial c59_splice_not_list c59_counterexample c59_improper_splice','Well-formed templates, spliced values proper lists; (unquote) without operand is silently the unspecified value, an improper spliced value loses its dot')
c('C60','partial','c60_use_partial c60_use_stop c60_count_partial c60_define_partial c60_counterexample c60_atom_counterexample','Any parameter list except exactly one parameter; expansion a list without heads that are macros of the current frame. FALSE: a single parameter becomes a rest parameter; an expansion that is a symbol is not evaluated (counterexamples)')
c('C61','partial','c61_throw_partial c61_uncaught_partial c61_target c61_target_uncaught c61_body c61_catch_partial c61_no_arguments_counterexample','States whose recorded catches are all still running; (throw key) without arguments calls the handler with an extra () argument (counterexample); recorded catches of returned calls: see C62')
c('C62','partial','c62_stack_partial c62_returns_partial c62_handled_partial c62_stale_counterexample c62_stale_ub_counterexample c62_exhausted_counterexample','Restored when the throw was caught by the innermost catch; FALSE when it crosses an inner catch: the inner entry stays behind, a later throw jumps into a dead frame, and 99 crossings exhaust the stack (counterexamples)')
c('C63','proved','c63_dynamic_wind c63_nested')
c('C64','partial','c64_jump_partial c64_order_counterexample c64_common_counterexample','Jumps where at most one wind is left and no wind is common; FALSE otherwise: outs run outermost first and common winds are re-run (counterexamples)')
c('C65','partial','c65_out_skipped c65_counterexample c65_later_counterexample','FALSE for every program: c65_out_skipped proves the out guard never runs on a throw')
c('C66','partial','c66_terminates c66_in_bounds c66_progress c66_eof c66_defined_partial c66_overflow_counterexample c66_program','Termination, bounds, monotone consumption and end of input are proved for every text; absence of undefined behaviour needs that no numeral has 19 or more digits: 9223372036854775808 overflows a signed integer (counterexample)')
c('C67','partial','c67_written_partial c67_roundtrip_partial c67_exact_partial c67_counterexample','For the fragment Readable; FALSE for -2^63, ratios, keywords, symbols with delimiters, (quote a b), the NUL character (counterexamples); floats are not modelled')
c('C68','partial','c68_string_partial c68_counterexample','The exact set of strings that survive is proved; FALSE for control and non-ASCII bytes (counterexample)')
c('C69','proved','c69_blank c69_list c69_tokens c69_quote_counterexample','Before a datum and between the elements of a list, for every text; additionally: after a quotation mark a blank before a comma does matter (counterexample to a stronger claim)')
c('C84','proved','c84_usable c84_no_escape c84_catch_counterexample c84_mixed_counterexample c84_eval','For every history of calls that return (an evaluation with undefined behaviour, C62, has no afterwards). Also proved: errors never escape the interface; stronger claims are false: after 98 errors that crossed a catch, (catch ...) fails; after 99 such pscm_eval calls pscm_eval_string fails on constants (counterexamples)')
c('C70','proved','c70_module_ref c70_variable c70_current c70_use c70_module_use','search order: own bindings, imports newest first, root; module-ref with default/error; variable references from code of a module and of none; effect of use-modules and module-use! on the order')
c('C71','partial','c71_hidden_partial c71_shown_partial c71_import_partial c71_snapshot c71_counterexample_redefinition c71_counterexample_early_export c71_counterexample_no_export c71_counterexample_interface_object c71_counterexample_set','full claim is false of the code: interfaces hold copies of values. Proved over all histories: an interface binds only exported names, an exported bound name is bound there forever, and an importer sees exactly what the interface binds. Histories where code defines variables inside an interface object itself are excluded.')
c('C72','proved','c72_define c72_define_form','')
c('C73','partial','c73_bound_partial c73_counterexample','false when the value is #f; proved otherwise')
c('C74','proved','c74_exact c74_terminates c74_completes c74_stale_crash c74_start_crash','every heap laid out as the collector assumes (c76/gc_history: every reachable heap); marks are exact whenever the phase ends, it always ends, and it ends without an invalid access under the stated condition; two concrete crashes when the condition fails')
c('C75','partial','c75_sweep_partial c75_odd_size','false after the allocation of a large block whose size is not a multiple of 16 (c75_odd_size); proved for all other heaps')
c('C76','proved','c76_alloc c76_exhausted gc_history','every history of allocation, write, collection; request sizes as made by the code (small, or a multiple of 16); a 65th segment is a null dereference (c76_exhausted)')
c('C77','partial','c77_history_partial c77_frees c77_odd_size c77_captured c77_smob','proved for typed fields, arrays and environment entries over every history; false for pointers held only in the stack copy of a continuation, in smob data, and after odd-size large blocks (three counterexamples)')
c('C78','proved','c78_operations c78_read_all c78_peek','every string and every sequence of read-char / peek-char / char-ready? operations')
c('C79','partial','c79_output_partial c79_nul_counterexample c79_overflow_counterexample','texts without NUL (display stops at a NUL byte: counterexample) and total below 2^30 bytes (the capacity is an int and overflows: counterexample)')
c('C80','partial','c80_balanced_partial c80_written_partial c80_sequence_partial c80_long_counterexample c80_char_counterexample c80_comment_counterexample c80_adjacent_counterexample c80_quote_counterexample','proved for balanced texts below 4096 bytes, including every written datum of the readable fragment and sequences of them; FALSE for longer texts, character literals of parentheses, parentheses in comments, adjacent data, blanks after a quote mark (counterexamples)')
c('C81','proved','c81_box c81_create c81_not_variable','every history of variable operations')
c('C82','proved','c82_types c82_limit c82_make c82_data c82_scheme c82_overflow_counterexample','every history of type creations, constructions and field assignments; beyond the claim: a number near the least long used as a tag is undefined behaviour instead of an error (counterexample)')
c('C83','proved','c83_copy_positions c83_error_unchanged c83_enable c83_disable_partial c83_restore c83_set_keywords c83_set_counterexample c83_disable_counterexample c83_keyword_counterexample','the invariant is proved for every history with any arguments; the effects of the calls as well, with the stated side condition on the keywords option; counterexamples to stronger readings')
c('C87','partial','c87_grammar c87_whole c87_counterexample','every text of the grammar Written; FALSE for a comma form outside a list or abbreviation, a blank between a quotation mark and a comma, and a comma after ,@ (counterexamples: read errors)')
c('C88','proved','c88_threshold c88_when c88_bound','every history with well-formed requests (sizes as in C76); live bytes below 2^53 so that the factor 1.5 in double is exact')
c('C89','proved','c89_initial c89_scope c89_reachable c89_procedure','builtins are assumed not to invent references to environments')
c('C90','partial','c90_load c90_unreadable c90_counterexample','FALSE for a file without expressions: it is an error, as if the file did not exist (counterexample)')
c('C91','partial','c91_persists c91_unique c91_resolve c91_registers c91_once c91_reenter c91_enter c91_counterexample','FALSE in one respect: a module whose file fails to load is registered nevertheless and never loaded again (counterexample)')
c('C92','proved','c92_variable c92_module c92_reference','A reference from the same environment needs that the current module is the same')
c('C93','partial','c93_resolve c93_use c93_current c93_set_current c93_current_module c93_module_p c93_counterexample c93_internal_counterexample','%load-path a list of strings. FALSE: after an error in the file the half-loaded module stays the current one; definitions inside procedures of the file define variables of the module (counterexamples)')
c('C94','partial','c94_options_partial c94_counterexample_order c94_counterexample_list','Imports before exports, requests that return. FALSE: options after #:export are taken as exports; the usual #:export (x y) is ignored (counterexamples)')
c('C95','partial','c95_expand1 c95_unchanged c95_expand_partial c95_agrees_partial c95_counterexample','Top-level macros; no expansion identical to its call; agreement with the evaluator as in C60. FALSE for macros defined inside a body (counterexample)')
c('C96','partial','c96_defined c96_counterexample','Exact for references at top level; FALSE for local variables (counterexample)')
c('C97','partial','c97_callcc_partial','Continuations invoked while the call/cc is active; re-entering a frame that has returned: see C127-C130')
c('C98','partial','c98_call_partial c98_unique c98_apply c98_not_procedure c98_actual c98_counterexample','Builtins: complete; closures: values that evaluate to themselves. FALSE otherwise: a closure gets the values of the arguments taken as expressions (c98_actual, for all arguments; counterexample)')
c('C99','partial','c99_define_partial c99_lookup c99_module_lookup c99_same_as_define c99_counterexample','FALSE for names bound in the global environment, such as builtins: the definition has no effect on references (counterexample)')
c('C100','partial','c100_required c100_optional_partial c100_counterexample','Up to three required arguments: complete. FALSE: four required arguments can never be called, and with optional or rest arguments nothing is checked (counterexamples)')
c('C101','partial','c101_each c101_last_partial c101_missing c101_counterexample c101_parse_counterexample','c101_each is exact for every readable file; FALSE: errors do not stop the evaluation and are lost, and a parse error is not caught (counterexamples)')
c('C102','partial','c102_classes c102_disjoint c102_numbers_partial c102_not c102_constructors c102_counterexample','Complete for the class predicates. FALSE for integer? and rational? of flonums: (integer? 2.0) is #f (counterexample)')
c('C103','partial','c103_file_input c103_file_output_partial c103_roundtrip_partial c103_unflushed_counterexample c103_nul_counterexample','Printed texts without NUL (a displayed NUL is lost: counterexample), one output port per file; without close or flush the file may stay empty (counterexample)')
c('C104','proved','c104_no_effect c104_input c104_output','Ports of every kind for the absence of effects; answers for file and string ports')
c('C105','partial','c105_interleaving c105_string_input c105_string_output_partial','Soft ports and the initial standard output port excluded from the interleaving theorem; output: texts without NUL, below 2^30 bytes')
c('C106','partial','c106_start c106_current c106_set c106_counterexample c106_closed_counterexample c106_input_counterexample','The registers are exact. FALSE: operations without a port ignore them: output goes to stdout, input is an error (counterexamples)')
c('C107','partial','c107_make c107_output_partial c107_input_partial c107_display_counterexample c107_both_counterexample c107_peek_counterexample','Holds for write-char, force-output, read-char and closing of one-directional ports. FALSE for display, write, newline, peek-char, read and for writing to read/write ports (counterexamples)')
c('C108','partial','c108_defined_partial c106_closed_counterexample','Soft-port procedures that return or raise, less than 2^30 bytes written, initial standard output not closed; FALSE after closing that port (counterexample)')
c('C109','partial','c109_arguments c109_input_file c109_output_file_partial c109_input_string c109_output_string_partial c109_error_counterexample','Output as in C103 and C105. If the procedure raises an error the port stays open and text may be lost (counterexample)')
c('C110','partial','Dbg.c110_error_unchanged Dbg.c110_restore Dbg.c110_enable Dbg.c110_disable_partial Dbg.c110_set_int Dbg.c110_set_file Dbg.c110_names Dbg.c110_set_counterexample Dbg.c110_disable_counterexample','FALSE: (debug-set! flag #f) has no effect; disabling an option with a number has no effect, disabling show-file-name with a symbol as value is an error (counterexamples)')
c('C111','partial','Repl.c111_complete Repl.c111_session_partial Repl.c111_multiline Repl.c111_data_partial Repl.c111_ends Repl.c111_stuck_counterexample Repl.c111_counterexample Repl.c111_nul_counterexample','Exact for sessions in which each complete text holds one expression, lines up to 4094 bytes. FALSE: an unmatched ) makes the REPL deaf for ever; a comment line, two expressions on a line or a string over two lines end the process (counterexamples)')
c('C112','partial','Cli.c112_file Cli.c112_help Cli.c112_duplicate Cli.c112_missing Cli.c112_run Cli.c112_unreadable Cli.c112_exit_partial Cli.c112_error_counterexample Cli.c112_version_counterexample Cli.c112_exit_counterexample','Argument handling exact for all vectors. FALSE: a script whose expressions all fail prints nothing and succeeds; -v and --version are taken as files; statuses are cut to 8 bits (counterexamples)')
c('C113','partial','Thr.c113_message_partial Thr.c113_defined Thr.c113_counterexample','Exact up to 1023 bytes; FALSE beyond 1025 bytes: the message is written outside its buffer (c113_defined: exactly when; counterexample)')
c('C114','partial','Thr.c114_transparent_partial Thr.c114_balanced Thr.c114_counterexample Thr.c114_leak_counterexample','FALSE: the handler is never called (proved for all programs), and a throw that leaves a lazy catch leaks its slot. A lazy catch otherwise changes nothing')

c('C115','proved','c115_fold c115_fold_stop c115_sum c115_product','Sum and product for exact integers whose partial results fit 64 bits (overflow: C01); the order of evaluation for all folding builtins')
c('C116','partial','Loc.c116_read Loc.c116_expansion_partial Loc.c116_shared_fails Loc.c116_counterexample','Expansions that do not hold an argument object at the place it has in the call. FALSE otherwise: the file name is used after it is freed (c116_shared_fails: always; counterexample)')
c('C117','partial','Loc.c117_position Loc.c117_position_lost Loc.c117_position_short Loc.c117_error Loc.c117_type_error','Exact texts for all inputs, no write outside a buffer; but a file name of 511 bytes or more loses line and column')
c('C118','partial','Loc.c118_text Loc.c118_report_partial Loc.c118_shown Loc.c118_stale Loc.c118_deep Loc.c118_unlocated','Evaluations without errors, at most 100 deep, all located. FALSE otherwise: caught errors leave entries for good, deeper nesting and expressions without position remove entries of others')

c('C119','partial','c119_if_partial c119_call_nests c119_linear c119_runs','Holds for if. FALSE for calls: the last body expression is evaluated in a nested invocation (c119_call_nests), so a tail-recursive loop over n elements needs depth n + 4 (c119_linear)')
c('C120','partial','Code.c120_unchanged_partial Code.c120_overwritten Code.c120_counterexample','For code without builtin objects in operator position (code read from text has none). FALSE otherwise: the argument expressions are overwritten by their values (c120_overwritten; counterexample)')
c('C121','partial','Smb.c121_tags Smb.c121_equal Smb.c121_print Smb.c121_apply_partial Smb.c121_variable_fails','FALSE when the smob is called through a variable: always an error (c121_variable_fails)')
c('C122','partial','Msr.c122_bound Msr.c122_binder Msr.c122_nested Msr.c122_terminates Msr.c122_guard_partial Msr.c122_error_fails','Termination without autoloads. FALSE after an error in a binder: no binder is ever called again (c122_error_fails, for all later sessions)')
c('C123','partial','Msr.c123_unlisted Msr.c123_loads Msr.c123_failed Msr.c123_option_partial Msr.c123_option_fails','Lookups exact. FALSE for the option syntax unless #:autoload comes last: the names and keywords of later options are listed too (c123_option_fails)')

c('C124','partial','Rp.c124_lines_partial Rp.c124_columns_partial Rp.c124_datum Rp.c124_own Rp.c124_lines_counterexample Rp.c124_columns_counterexample Rp.c124_shared_counterexample','Lines: texts without backslash-newline; columns: also without double quote, { and #:. FALSE otherwise (counterexamples); #t, #f and () share one position')
c('C125','partial','Rp.c125_lines Rp.c125_error_partial Rp.c125_column Rp.c125_head_partial Rp.c125_caret_fails Rp.c125_frame_caret_fails Rp.c125_more_counterexample','Lines and column exact. FALSE: the caret is always left of the byte by the digits of the line number (c125_caret_fails, for all inputs); the number of hidden frames is always 20')
c('C126','partial','Rp.c126_balanced_partial Rp.c126_unfinished_partial Rp.c126_shown Rp.c126_leak Rp.c126_hidden_counterexample Rp.c126_finished_counterexample Rp.c126_popped_counterexample Rp.c126_stale_counterexample','Texts without vectors, (), quoted characters (and strings, for the balance). FALSE otherwise: () leaves its frame for ever (c126_leak), strings pop two, the innermost list is hidden, and frames outlive their text, so that a report reads outside its buffer')
c('C127','partial','Cm.c127_resume_partial Cm.c127_safe Cm.c127_words Cm.c127_base Cm.c127_negative_fails Cm.c127_unset_fails Cm.c127_host_counterexample','Complete while the program stays below cont_base. FALSE otherwise: cont_base is fixed once, during the initialisation, and a host that evaluates from a shallower frame has undefined behaviour at call/cc')
c('C128','partial','Re.c128_fresh_partial Re.c128_two Re.c128_backtracking Re.c128_stale_fails Re.c128_counterexample','Holds for at most two operands, for backtracking, and for all fresh points. FALSE for all other points: the value passed is ignored (proved for all of them)')
c('C129','partial','Re.c129_bindings_partial Re.c129_shared_fails Re.c129_order_counterexample Re.c129_assign_counterexample','Parameters bound correctly in depth-first histories. FALSE: all activations share one environment, so earlier closures see their variables change (proved for every such history)')
c('C130','partial','Re.c130_once_partial Re.c130_next Re.c130_after_fails Re.c130_skip_counterexample','Holds when every application returns once. FALSE otherwise: elements are skipped, and after map has returned freed memory is read (proved for every history)')
c('C131','partial','Lst.c131_roundtrip Lst.c131_terminated Lst.c131_out Lst.c131_truncated_fails Lst.c131_long_fails','Texts of less than 2^31 - 1 bytes. FALSE otherwise: from 2^32 bytes on they are silently cut, below that the process is aborted or undefined')
c('C132','partial','Itr.c132_fold Itr.c132_static Itr.c132_current_partial Itr.c132_module_map Itr.c132_stale_counterexample','Everything but the last clause for all procedures; the last clause for procedures that remove at most the key they are called with. FALSE otherwise: removed entries are passed (counterexample)')
c('C133','partial','c133_last c133_safe c133_kept c133_dangling c133_leak c133_eval_null c133_uncaught c133_stale_counterexample c133_file_counterexample','Keys, messages, memory: for all histories. FALSE: a text returned before is deleted by the next error, always (c133_dangling); a null answer without error leaves the old error in place; pscm_eval_file hides all errors but that of the last expression')
c('C134','partial','c134_call_partial c134_error_fails c134_not_module c134_define_module_partial c134_define_module_fails c134_use c134_import c134_name_error','Functions that return. FALSE otherwise: an error or jump out of the function leaves its module current, also after the error has been reported to the host (c134_error_fails, c134_define_module_fails: always)')
c('C135','partial','c135_bound c135_macros c135_entered_partial c135_current_module_fails c135_arity','All builtins but current-module. FALSE for current-module: its C function has one parameter and is called with none')
c('C136','partial','SmS.c136_data SmS.c136_types SmS.c136_errors SmS.c136_tag_overflow','All but the last clause for all histories. FALSE: a tag below -2^63 + 2^24 is undefined behaviour (signed overflow), in every state')
c('C137','partial','c137_kept c137_registered c137_host_fails c137_options_fail Gc.Demo.c137_host_counterexample','Registered variables (up to 8192), global environment, registers, stack below the marker. FALSE: pscm_init does not set the marker, so in a host program the stack is never scanned and every collection frees what only the stack holds; the values of the options keywords and show-file-name are no roots')
c('C138','partial','c138_value_partial c138_error_partial c138_redefine_fails c138_call_datum_fails c138_factorial c138_flip c138_unique c145_value_partial c145_error_partial','All programs that do not define a procedure with the name of a builtin by (define (f ...) ...), with one expression in the body of each named let, with do variables that are not bound outside and boolean tests (otherwise C52), with templates that are not nested, with map and for-each over lists of the same length, for-each with a Scheme procedure of that number of parameters and without empty lists as elements (the code evaluates only the first: c49_counterexample) and without internal (define (f ...) ...) (the code makes them global: C40). FALSE for the former: such a definition is never seen (c138_redefine_fails: always); and for calls of a datum without arguments, which give the datum (c138_call_datum_fails)')
c('C139','proved','c139_use c139_value c139_error c139_read c139_debug c139_read_error c139_debug_error c139_session','Literal arguments: constants and quoted symbols that are not names of the six macros; the builtins the macros use not redefined. The option builtins are those of C83 and C110')
c('C140','partial','c140_script_partial c140_error_partial c140_empty_fails c140_session_partial c140_session_error_partial c140_session_empty c140_text c140_readback','Programs as in C138. FALSE for the empty program: exit status 1 and a message that the file cannot be read (c140_empty_fails: always). What the forms after an erroneous one print is left open (c140_error_partial) where the semantics does not say which effects precede the error: too many arguments, an error in the list arguments of map and for-each; so is the text of procedures')
c('C141','partial','c141_values_partial c141_error_partial c141_split c141_empty_fails','Programs as in C138. FALSE for texts without expressions: the answer is the null pointer, although the comment in the code says unspecified (c141_empty_fails: always)')
c('C142','partial','c142_script_partial c142_display_list_fails','Programs as in C138; strings without NUL. FALSE for display of lists: strings and characters in them are printed as write does (c142_display_list_fails: always for strings). Errors as in C140; the text of procedures is left open')
c('C143','partial','c143_session_partial','Programs as in C138, one form per entry, entries as in C111 (lines that fit the buffers; a parse error ends the process: C111). The line that shows the expression is what print_ast prints for the datum read. Values that contain strings in lists and the text of procedures are as in C142')
c('C144','partial','c144_file_partial c144_string_partial c144_fallback c144_closed_fails c144_quit','Lines of at most 1023 bytes (beyond 1025 undefined: C113), output without NUL and below 2^30 bytes; the standard error open if a call stack is printed. FALSE for the last clause: when the program has closed the port of the standard error, every uncaught throw writes to the closed C stream (c144_closed_fails: always)')
c('C145','proved','c145_eval c145_quoted c145_anywhere c145_program c145_forms c145_count c145_not_local','All data and states where eval and quote are the initial ones and the current module is the root module. The comment in the code, that the expression is evaluated in the current environment, is false (c145_not_local). With C138: c145_value_partial and c145_error_partial')
c('C146','partial','c146_name c146_stable c146_print c146_builtin_fails','Procedures: all histories. FALSE for builtins: procedure-name is an error for every builtin, although it has a name and prints it (c146_builtin_fails: always)')
c('C147','partial','c147_value_partial c147_error_partial c147_default_partial','Programs as in C138; catch with #t at top level, thunk and handler written as lambda expressions, while catch is the builtin. What the handler is called with is left open by the semantics, and so are errors whose preceding effects it leaves open (C140)')
c('C148','partial','c148_value_partial c148_error_partial c148_program_partial','Data: 64-bit integers, booleans, characters, symbols without NUL, strings (both below 2^31 - 1 bytes), () and pairs in the representation that cons, list and the reader make. Literals such as (1 . (2 3)) have another one (C13, C15), and where the reference semantics leaves the result open nothing is said (append with an improper last argument, assq on lists with elements that are not pairs, eq? of strings and lists). The same reference semantics is that of the programs of C138, so this ties the tree values of the evaluator model to the models of memory')
c('C149','partial','c149_value_partial c149_error_partial c149_program_partial','Data as in C148. Where the reference semantics leaves the result open nothing is said: comparisons and string->symbol of strings with NUL (C33 says what happens), results of 2^31 - 1 bytes and more, number->string with a radix or of the least integer. The procedures that change a string (string-set!, string-fill!) and those that read numbers are not in the list.')
c('C150','partial','c150_value_partial c150_error_partial c150_program_partial c150_program_error_partial','Data as in C148; numbers are 64-bit integers. Nothing is said where the reference semantics leaves the result open: results that overflow (C01 says what happens), parity, max and min beyond 2^53, non-numbers among the arguments of + and the comparisons (C01, C05). The result is a new object also where the C code returns an argument; numbers have no identity in the specification.')
c('C151','partial','c151_set_car_partial c151_set_cdr_partial c151_circular_partial','Data in the representation of C148. C12 says what the calls do to the cells, also for other representations and for non-pairs. If the value contains the pair only the pair itself is said to be circular')
c('C152','partial','c152_remove_partial c152_set_partial c152_assq_set_partial c152_ref_partial c152_list_head_partial','FALSE in full: assoc-ref returns the first element of the rest of the entry if it is a pair, and #f if it is the empty list (C24); stated with that (refOf). Data as in C148; keys without dotted pairs and without strings that contain NUL; elements that are not pairs are allowed (not for assoc-ref)')
c('C153','partial','c153_string_set_partial','Data in the representation of C148. C31 says what the call does to the bytes, also for other arguments')
