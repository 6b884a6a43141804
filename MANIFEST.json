{
 "claims": [
  {
   "property": "C01",
   "status": "proved",
   "theorems": [
    "Pscm.c01_plus",
    "Pscm.c01_times",
    "Pscm.c01_minus"
   ],
   "note": "both directions: exact when no running result overflows, undefined behaviour otherwise"
  },
  {
   "property": "C02",
   "status": "proved",
   "theorems": [
    "Pscm.c02_division",
    "Pscm.c02_edges"
   ],
   "note": "all pairs, including zero divisor and the single overflowing pair"
  },
  {
   "property": "C03",
   "status": "proved",
   "theorems": [
    "Pscm.c03_gcd",
    "Pscm.c03_gcd_ub",
    "Pscm.c03_lcm"
   ],
   "note": "lcm under the hypothesis that prefix lcms fit in 64 bits"
  },
  {
   "property": "C04",
   "status": "proved",
   "theorems": [
    "Pscm.c04_div",
    "Pscm.c04_div_zero",
    "Pscm.c04_div_unary"
   ],
   "note": "exact integer arguments; float arguments are not covered"
  },
  {
   "property": "C05",
   "status": "proved",
   "theorems": [
    "Pscm.c05_compare",
    "Pscm.c05_mixed"
   ],
   "note": ""
  },
  {
   "property": "C06",
   "status": "partial",
   "theorems": [
    "Pscm.c06_parity_partial",
    "Pscm.c06_parity_large",
    "Pscm.c06_counterexample"
   ],
   "note": "FALSE of the code above 2^53: the argument goes through double; counterexample proved; holds up to 2^53"
  },
  {
   "property": "C07",
   "status": "partial",
   "theorems": [
    "Pscm.c07_max_min_partial",
    "Pscm.c07_counterexample",
    "Pscm.c07_mixed",
    "Pscm.c07_not_number"
   ],
   "note": "FALSE of the code above 2^53 (through double); counterexample proved; holds up to 2^53"
  },
  {
   "property": "C08",
   "status": "proved",
   "theorems": [
    "Pscm.c08_expt",
    "Pscm.c08_expt_negative"
   ],
   "note": ""
  },
  {
   "property": "C09",
   "status": "proved",
   "theorems": [
    "Pscm.c09_abs",
    "Pscm.c09_sign"
   ],
   "note": ""
  },
  {
   "property": "C10",
   "status": "partial",
   "theorems": [
    "Pscm.c10_print_partial",
    "Pscm.c10_read",
    "Pscm.c10_roundtrip_partial",
    "Pscm.c10_min_undefined",
    "Pscm.c10_bad_radix",
    "Pscm.c10_ratio"
   ],
   "note": "All 64-bit integers but -2^63 (proved undefined), all radices 2..36; out-of-range numerals are proved to saturate."
  },
  {
   "property": "C11",
   "status": "partial",
   "theorems": [
    "Pscm.c11_cons_partial",
    "Pscm.c11_cdr_not_eq",
    "Pscm.c11_circular_counterexample",
    "Pscm.c11_flagged_counterexample",
    "Pscm.c11_cxr_partial",
    "Pscm.c11_cadr_counterexample"
   ],
   "note": "FALSE in full: cons diverges on a circular cdr and mis-cdrs onto a flagged head node (both proved); holds for unflagged acyclic lists, nil and atoms"
  },
  {
   "property": "C12",
   "status": "proved",
   "theorems": [
    "Pscm.c12_set_car",
    "Pscm.c12_set_cdr",
    "Pscm.c12_non_pair"
   ],
   "note": ""
  },
  {
   "property": "C13",
   "status": "partial",
   "theorems": [
    "Pscm.c13_length_partial",
    "Pscm.c13_length_non_list",
    "Pscm.c13_length_improper",
    "Pscm.c13_counterexample"
   ],
   "note": "proper lists exact; improper lists are counted instead of rejected (counterexample)"
  },
  {
   "property": "C14",
   "status": "partial",
   "theorems": [
    "Pscm.c14_reverse_partial",
    "Pscm.c14_reverse_twice",
    "Pscm.c14_counterexample"
   ],
   "note": "proper lists; improper lists are reversed instead of rejected (counterexample)"
  },
  {
   "property": "C15",
   "status": "partial",
   "theorems": [
    "Pscm.c15_append_partial",
    "Pscm.c15_append_improper",
    "Pscm.c15_counterexample"
   ],
   "note": "FALSE for a final improper argument with two or more cars: middle elements dropped (counterexample)"
  },
  {
   "property": "C16",
   "status": "proved",
   "theorems": [
    "Pscm.c16_list_ref",
    "Pscm.c16_list_tail",
    "Pscm.c16_list_head",
    "Pscm.c16_head_tail"
   ],
   "note": ""
  },
  {
   "property": "C17",
   "status": "partial",
   "theorems": [
    "Pscm.c17_actual",
    "Pscm.c17_last_pair_partial",
    "Pscm.c17_counterexample"
   ],
   "note": "FALSE for odd lengths >= 3 (c17_actual characterises the result for every length)"
  },
  {
   "property": "C18",
   "status": "partial",
   "theorems": [
    "Pscm.c18_memq",
    "Pscm.c18_member_partial",
    "Pscm.c18_memv_partial",
    "Pscm.c18_counterexample"
   ],
   "note": "memq full; member on data with canonical lists; memv does not find symbols (counterexample)"
  },
  {
   "property": "C19",
   "status": "partial",
   "theorems": [
    "Pscm.c19_list_p_partial",
    "Pscm.c19_counterexample"
   ],
   "note": "FALSE beyond 10001 nodes: list? answers #f (counterexample)"
  },
  {
   "property": "C20",
   "status": "proved",
   "theorems": [
    "Pscm.c20_equal",
    "Pscm.c20_equivalence"
   ],
   "note": ""
  },
  {
   "property": "C21",
   "status": "proved",
   "theorems": [
    "Pscm.c21_chain",
    "Pscm.c21_strict"
   ],
   "note": ""
  },
  {
   "property": "C22",
   "status": "partial",
   "theorems": [
    "Pscm.c22_agree_partial",
    "Pscm.c22_counterexample",
    "Pscm.c22_error"
   ],
   "note": "FALSE with dotted pairs in both directions (counterexample); agrees on data with proper undotted lists"
  },
  {
   "property": "C23",
   "status": "partial",
   "theorems": [
    "Pscm.c23_assq",
    "Pscm.c23_assoc_partial"
   ],
   "note": "assq full; assoc/assv on keys that are data with canonical lists (they use the legacy equality of C22)"
  },
  {
   "property": "C24",
   "status": "partial",
   "theorems": [
    "Pscm.c24_assq_set",
    "Pscm.c24_assoc_set_partial",
    "Pscm.c24_counterexample",
    "Pscm.c24_acons"
   ],
   "note": "FALSE of the ref procedures: assoc-ref returns the wrong part of a list value (counterexample); the entry found by assq/assoc afterwards is the stored one"
  },
  {
   "property": "C25",
   "status": "partial",
   "theorems": [
    "Pscm.c25_remove_partial",
    "Pscm.c25_counterexample"
   ],
   "note": "FALSE with duplicate keys: only the first entry is removed (counterexample)"
  },
  {
   "property": "C26",
   "status": "partial",
   "theorems": [
    "Pscm.c26_hashq",
    "Pscm.c26_hashv",
    "Pscm.c26_hash_partial",
    "Pscm.c26_counterexample",
    "Pscm.c26_handle_counterexample"
   ],
   "note": "every history, per family, for the key comparison the family implements; FALSE for the Scheme equivalences (hashv does not find eqv? symbols, hashq does not find eq? integers) and when a handle is given a list by set-cdr! (counterexamples)"
  },
  {
   "property": "C27",
   "status": "partial",
   "theorems": [
    "Pscm.c27_hashq",
    "Pscm.c27_hashv",
    "Pscm.c27_hash_partial",
    "Pscm.c27_counterexample"
   ],
   "note": "hashq/hashv: all keys; hash: integers, strings, symbols, (), booleans, proper lists; FALSE for characters (counterexample)"
  },
  {
   "property": "C28",
   "status": "proved",
   "theorems": [
    "Pscm.c28_counts",
    "Pscm.c26_hash_partial"
   ],
   "note": "hashq/hashv all histories; hash- tables in c26_hash_partial for its keys"
  },
  {
   "property": "C29",
   "status": "proved",
   "theorems": [
    "Pscm.c29_ref",
    "Pscm.c29_set",
    "Pscm.c29_non_vector",
    "Pscm.c29_history",
    "Pscm.c29_make",
    "Pscm.c29_length"
   ],
   "note": ""
  },
  {
   "property": "C30",
   "status": "partial",
   "theorems": [
    "Pscm.c30_vector_to_list_partial",
    "Pscm.c30_list_to_vector",
    "Pscm.c30_inverse_partial",
    "Pscm.c30_counterexample"
   ],
   "note": "holds below 2^31 elements; above, the int loop counter overflows (counterexample)"
  },
  {
   "property": "C31",
   "status": "partial",
   "theorems": [
    "Pscm.c31_ref",
    "Pscm.c31_set",
    "Pscm.c31_substring",
    "Pscm.c31_non_string",
    "Pscm.c31_history",
    "Pscm.c31_make_partial",
    "Pscm.c31_make_huge",
    "Pscm.c31_length"
   ],
   "note": "Accessors complete; make-string of 2^31 or more characters is proved undefined."
  },
  {
   "property": "C32",
   "status": "partial",
   "theorems": [
    "Pscm.c32_append_partial",
    "Pscm.c32_append_error",
    "Pscm.c32_length",
    "Pscm.c32_string_to_list",
    "Pscm.c32_list_to_string_partial",
    "Pscm.c32_list_to_string_error",
    "Pscm.c32_inverse_partial",
    "Pscm.c32_string"
   ],
   "note": "Partial only in the int length limit (results below 2^31-1 bytes)."
  },
  {
   "property": "C33",
   "status": "proved",
   "theorems": [
    "Pscm.c33_trichotomy",
    "Pscm.c33_transitive",
    "Pscm.c33_lexicographic",
    "Pscm.c33_nul_counterexample"
   ],
   "note": "Total preorder for all strings; bytewise lexicographic on NUL-free strings; string=? ignores bytes after a NUL (witness)."
  },
  {
   "property": "C34",
   "status": "partial",
   "theorems": [
    "Pscm.c34_order_partial",
    "Pscm.c34_eq",
    "Pscm.c34_eq_agrees_partial",
    "Pscm.c34_counterexample"
   ],
   "note": "Ordering agrees for 7-bit NUL-free strings; false for bytes >= 128 (signed char comparison), witness proved."
  },
  {
   "property": "C35",
   "status": "proved",
   "theorems": [
    "Pscm.c35_inverse",
    "Pscm.c35_order",
    "Pscm.c35_case",
    "Pscm.c35_classes"
   ],
   "note": ""
  },
  {
   "property": "C36",
   "status": "partial",
   "theorems": [
    "Pscm.c36_inverse_partial",
    "Pscm.c36_eq",
    "Pscm.c36_nul_counterexample"
   ],
   "note": "Names below 2^31-1 bytes; eq? exact for NUL-free names, NUL witness proved."
  },
  {
   "property": "C37",
   "status": "partial",
   "theorems": [
    "Pscm.c37_distinct_partial",
    "Pscm.c37_overflow",
    "Pscm.c37_forgeable"
   ],
   "note": "Histories of fewer than 2^31 calls; the 2^31-th call is proved undefined."
  },
  {
   "property": "C38",
   "status": "partial",
   "theorems": [
    "Pscm.c38_reference",
    "Pscm.c38_wf",
    "Pscm.c38_operator_partial",
    "Pscm.c38_counterexample"
   ],
   "note": "Variable references: complete. Operator position: proved in the root module without macros of that name; FALSE in other modules, where the module binding wins over enclosing frames (counterexample)"
  },
  {
   "property": "C39",
   "status": "partial",
   "theorems": [
    "Pscm.c39_set",
    "Pscm.c39_set_module",
    "Pscm.c39_counterexample"
   ],
   "note": "Lexical bindings complete; module bindings through the current module; FALSE for a procedure of a module called while another module is current (counterexample)"
  },
  {
   "property": "C40",
   "status": "partial",
   "theorems": [
    "Pscm.c40_local_partial",
    "Pscm.c40_counterexample",
    "Pscm.c40_counterexample_module"
   ],
   "note": "(define x e) in a body without module pointer is local; FALSE for (define (f) ...) and for bodies of module files (counterexamples)"
  },
  {
   "property": "C41",
   "status": "proved",
   "theorems": [
    "Pscm.c41_fuel",
    "Pscm.c41_deterministic"
   ],
   "note": ""
  },
  {
   "property": "C42",
   "status": "proved",
   "theorems": [
    "Pscm.c42_if",
    "Pscm.c42_if_no_else"
   ],
   "note": ""
  },
  {
   "property": "C43",
   "status": "proved",
   "theorems": [
    "Pscm.c43_and",
    "Pscm.c43_or"
   ],
   "note": ""
  },
  {
   "property": "C44",
   "status": "proved",
   "theorems": [
    "Pscm.c44_begin",
    "Pscm.c44_compose"
   ],
   "note": ""
  },
  {
   "property": "C45",
   "status": "proved",
   "theorems": [
    "Pscm.c45_call",
    "Pscm.c45_call_stop",
    "Pscm.c45_call_terminates",
    "Pscm.c45_operator",
    "Pscm.c45_call_reachable",
    "Pscm.c45_call_stop_reachable",
    "Pscm.c45_call_terminates_reachable"
   ],
   "note": "Arbitrary argument expressions, in every reachable state; hypothesis: builtins do not invent environment references"
  },
  {
   "property": "C46",
   "status": "partial",
   "theorems": [
    "Pscm.c46_count_partial",
    "Pscm.c46_error_partial",
    "Pscm.c46_counterexample"
   ],
   "note": "Procedures without rest parameter; FALSE with one: too few arguments leave parameters unbound silently (counterexample)"
  },
  {
   "property": "C47",
   "status": "proved",
   "theorems": [
    "Pscm.c47_arity",
    "Pscm.c47_enter"
   ],
   "note": ""
  },
  {
   "property": "C48",
   "status": "proved",
   "theorems": [
    "Pscm.c48_let",
    "Pscm.c48_let_meaning",
    "Pscm.c48_let_star",
    "Pscm.c48_let_star_nil",
    "Pscm.c48_letrec",
    "Pscm.c48_let_reachable"
   ],
   "note": ""
  },
  {
   "property": "C49",
   "status": "partial",
   "theorems": [
    "Pscm.c49_loop_nil_partial",
    "Pscm.c49_loop_partial",
    "Pscm.c49_loop_reachable_partial",
    "Pscm.c49_counterexample",
    "Pscm.c49_capture"
   ],
   "note": "Single body expression, names __temp_i unused; FALSE for longer bodies: only the first expression is kept (counterexample); temporaries capture (counterexample)"
  },
  {
   "property": "C50",
   "status": "partial",
   "theorems": [
    "Pscm.c50_cond_partial",
    "Pscm.c50_counterexample"
   ],
   "note": "All clause forms except a test-only clause, which returns #t instead of the test value (counterexample)"
  },
  {
   "property": "C51",
   "status": "partial",
   "theorems": [
    "Pscm.c51_case_partial",
    "Pscm.c51_key_fails"
   ],
   "note": "Keys and data that are numbers, characters, symbols, booleans or (); compound data compare structurally in the code"
  },
  {
   "property": "C52",
   "status": "partial",
   "theorems": [
    "Pscm.c52_do_partial",
    "Pscm.c52_do_reachable_partial",
    "Pscm.c52_init_stop",
    "Pscm.c52_overwrites",
    "Pscm.c52_nonboolean"
   ],
   "note": "Loop variables not bound in an enclosing frame, boolean tests; FALSE otherwise: enclosing variables are overwritten, a true non-#t test is a type error (counterexamples)"
  },
  {
   "property": "C53",
   "status": "proved",
   "theorems": [
    "Pscm.c53_map",
    "Pscm.c53_map_not_procedure"
   ],
   "note": ""
  },
  {
   "property": "C54",
   "status": "partial",
   "theorems": [
    "Pscm.c54_for_each_partial",
    "Pscm.c54_counterexample",
    "Pscm.c54_rest_counterexample"
   ],
   "note": "Lists of equal length with no () element, procedure with exactly as many parameters as lists; FALSE otherwise: iteration stops at a () element, a rest-parameter procedure receives only the first list (counterexamples)"
  },
  {
   "property": "C55",
   "status": "partial",
   "theorems": [
    "Pscm.c55_apply_partial",
    "Pscm.c55_counterexample"
   ],
   "note": "Leading values self-evaluating; FALSE otherwise: leading values are evaluated twice (counterexample)"
  },
  {
   "property": "C56",
   "status": "partial",
   "theorems": [
    "Pscm.c56_force_same",
    "Pscm.c56_first",
    "Pscm.c56_counterexample"
   ],
   "note": "Same value for ever: proved; evaluated once when forcing does not force the same promise; FALSE under re-entrant force: the expression runs twice (counterexample)"
  },
  {
   "property": "C57",
   "status": "partial",
   "theorems": [
    "Pscm.c57_values",
    "Pscm.c57_single_partial",
    "Pscm.c57_counterexample"
   ],
   "note": "Multiple values and a single non-list value: proved; FALSE for a single list value: it is spread (counterexample)"
  },
  {
   "property": "C58",
   "status": "partial",
   "theorems": [
    "Pscm.Ev.c58_plain_partial",
    "Pscm.Ev.c58_counterexample"
   ],
   "note": "Well-formed templates; FALSE for an inner splice followed by a dotted tail (counterexample)"
  },
  {
   "property": "C59",
   "status": "partial",
   "theorems": [
    "Pscm.Ev.c59_fill_partial",
    "Pscm.Ev.c59_splice_not_list",
    "Pscm.Ev.c59_counterexample",
    "Pscm.Ev.c59_improper_splice"
   ],
   "note": "Well-formed templates, spliced values proper lists; (unquote) without operand is silently the unspecified value, an improper spliced value loses its dot"
  },
  {
   "property": "C60",
   "status": "partial",
   "theorems": [
    "Pscm.Ev.c60_use_partial",
    "Pscm.Ev.c60_use_stop",
    "Pscm.Ev.c60_count_partial",
    "Pscm.Ev.c60_define_partial",
    "Pscm.Ev.c60_counterexample",
    "Pscm.Ev.c60_atom_counterexample"
   ],
   "note": "Any parameter list except exactly one parameter; expansion a list without heads that are macros of the current frame. FALSE: a single parameter becomes a rest parameter; an expansion that is a symbol is not evaluated (counterexamples)"
  },
  {
   "property": "C61",
   "status": "partial",
   "theorems": [
    "Pscm.c61_throw_partial",
    "Pscm.c61_uncaught_partial",
    "Pscm.c61_target",
    "Pscm.c61_target_uncaught",
    "Pscm.c61_body",
    "Pscm.c61_catch_partial",
    "Pscm.c61_no_arguments_counterexample"
   ],
   "note": "States whose recorded catches are all still running; (throw key) without arguments calls the handler with an extra () argument (counterexample); recorded catches of returned calls: see C62"
  },
  {
   "property": "C62",
   "status": "partial",
   "theorems": [
    "Pscm.c62_stack_partial",
    "Pscm.c62_returns_partial",
    "Pscm.c62_handled_partial",
    "Pscm.c62_stale_counterexample",
    "Pscm.c62_stale_ub_counterexample",
    "Pscm.c62_exhausted_counterexample"
   ],
   "note": "Restored when the throw was caught by the innermost catch; FALSE when it crosses an inner catch: the inner entry stays behind, a later throw jumps into a dead frame, and 99 crossings exhaust the stack (counterexamples)"
  },
  {
   "property": "C63",
   "status": "proved",
   "theorems": [
    "Pscm.c63_dynamic_wind",
    "Pscm.c63_nested"
   ],
   "note": ""
  },
  {
   "property": "C64",
   "status": "partial",
   "theorems": [
    "Pscm.c64_jump_partial",
    "Pscm.c64_order_counterexample",
    "Pscm.c64_common_counterexample"
   ],
   "note": "Jumps where at most one wind is left and no wind is common; FALSE otherwise: outs run outermost first and common winds are re-run (counterexamples)"
  },
  {
   "property": "C65",
   "status": "partial",
   "theorems": [
    "Pscm.c65_out_skipped",
    "Pscm.c65_counterexample",
    "Pscm.c65_later_counterexample"
   ],
   "note": "FALSE for every program: c65_out_skipped proves the out guard never runs on a throw"
  },
  {
   "property": "C66",
   "status": "partial",
   "theorems": [
    "Pscm.c66_terminates",
    "Pscm.c66_in_bounds",
    "Pscm.c66_progress",
    "Pscm.c66_eof",
    "Pscm.c66_defined_partial",
    "Pscm.c66_overflow_counterexample",
    "Pscm.c66_program"
   ],
   "note": "Termination, bounds, monotone consumption and end of input are proved for every text; absence of undefined behaviour needs that no numeral has 19 or more digits: 9223372036854775808 overflows a signed integer (counterexample)"
  },
  {
   "property": "C67",
   "status": "partial",
   "theorems": [
    "Pscm.c67_written_partial",
    "Pscm.c67_roundtrip_partial",
    "Pscm.c67_exact_partial",
    "Pscm.c67_counterexample"
   ],
   "note": "For the fragment Readable; FALSE for -2^63, ratios, keywords, symbols with delimiters, (quote a b), the NUL character (counterexamples); floats are not modelled"
  },
  {
   "property": "C68",
   "status": "partial",
   "theorems": [
    "Pscm.c68_string_partial",
    "Pscm.c68_counterexample"
   ],
   "note": "The exact set of strings that survive is proved; FALSE for control and non-ASCII bytes (counterexample)"
  },
  {
   "property": "C69",
   "status": "proved",
   "theorems": [
    "Pscm.c69_blank",
    "Pscm.c69_list",
    "Pscm.c69_tokens",
    "Pscm.c69_quote_counterexample"
   ],
   "note": "Before a datum and between the elements of a list, for every text; additionally: after a quotation mark a blank before a comma does matter (counterexample to a stronger claim)"
  },
  {
   "property": "C70",
   "status": "proved",
   "theorems": [
    "Pscm.c70_module_ref",
    "Pscm.c70_variable",
    "Pscm.c70_current",
    "Pscm.c70_use",
    "Pscm.c70_module_use"
   ],
   "note": "search order: own bindings, imports newest first, root; module-ref with default/error; variable references from code of a module and of none; effect of use-modules and module-use! on the order"
  },
  {
   "property": "C71",
   "status": "partial",
   "theorems": [
    "Pscm.c71_hidden_partial",
    "Pscm.c71_shown_partial",
    "Pscm.c71_import_partial",
    "Pscm.c71_snapshot",
    "Pscm.c71_counterexample_redefinition",
    "Pscm.c71_counterexample_early_export",
    "Pscm.c71_counterexample_no_export",
    "Pscm.c71_counterexample_interface_object",
    "Pscm.c71_counterexample_set"
   ],
   "note": "full claim is false of the code: interfaces hold copies of values. Proved over all histories: an interface binds only exported names, an exported bound name is bound there forever, and an importer sees exactly what the interface binds. Histories where code defines variables inside an interface object itself are excluded."
  },
  {
   "property": "C72",
   "status": "proved",
   "theorems": [
    "Pscm.c72_define",
    "Pscm.c72_define_form"
   ],
   "note": ""
  },
  {
   "property": "C73",
   "status": "partial",
   "theorems": [
    "Pscm.c73_bound_partial",
    "Pscm.c73_counterexample"
   ],
   "note": "false when the value is #f; proved otherwise"
  },
  {
   "property": "C74",
   "status": "proved",
   "theorems": [
    "Pscm.c74_exact",
    "Pscm.c74_terminates",
    "Pscm.c74_completes",
    "Pscm.c74_stale_crash",
    "Pscm.c74_start_crash"
   ],
   "note": "every heap laid out as the collector assumes (c76/gc_history: every reachable heap); marks are exact whenever the phase ends, it always ends, and it ends without an invalid access under the stated condition; two concrete crashes when the condition fails"
  },
  {
   "property": "C75",
   "status": "partial",
   "theorems": [
    "Pscm.c75_sweep_partial",
    "Pscm.c75_odd_size"
   ],
   "note": "false after the allocation of a large block whose size is not a multiple of 16 (c75_odd_size); proved for all other heaps"
  },
  {
   "property": "C76",
   "status": "proved",
   "theorems": [
    "Pscm.c76_alloc",
    "Pscm.c76_exhausted",
    "Pscm.gc_history"
   ],
   "note": "every history of allocation, write, collection; request sizes as made by the code (small, or a multiple of 16); a 65th segment is a null dereference (c76_exhausted)"
  },
  {
   "property": "C77",
   "status": "partial",
   "theorems": [
    "Pscm.c77_history_partial",
    "Pscm.c77_frees",
    "Pscm.c77_odd_size",
    "Pscm.c77_captured",
    "Pscm.c77_smob"
   ],
   "note": "proved for typed fields, arrays and environment entries over every history; false for pointers held only in the stack copy of a continuation, in smob data, and after odd-size large blocks (three counterexamples)"
  },
  {
   "property": "C78",
   "status": "proved",
   "theorems": [
    "Pscm.c78_operations",
    "Pscm.c78_read_all",
    "Pscm.c78_peek"
   ],
   "note": "every string and every sequence of read-char / peek-char / char-ready? operations"
  },
  {
   "property": "C79",
   "status": "partial",
   "theorems": [
    "Pscm.c79_output_partial",
    "Pscm.c79_nul_counterexample",
    "Pscm.c79_overflow_counterexample"
   ],
   "note": "texts without NUL (display stops at a NUL byte: counterexample) and total below 2^30 bytes (the capacity is an int and overflows: counterexample)"
  },
  {
   "property": "C80",
   "status": "partial",
   "theorems": [
    "Pscm.c80_balanced_partial",
    "Pscm.c80_written_partial",
    "Pscm.c80_sequence_partial",
    "Pscm.c80_long_counterexample",
    "Pscm.c80_char_counterexample",
    "Pscm.c80_comment_counterexample",
    "Pscm.c80_adjacent_counterexample",
    "Pscm.c80_quote_counterexample"
   ],
   "note": "proved for balanced texts below 4096 bytes, including every written datum of the readable fragment and sequences of them; FALSE for longer texts, character literals of parentheses, parentheses in comments, adjacent data, blanks after a quote mark (counterexamples)"
  },
  {
   "property": "C81",
   "status": "proved",
   "theorems": [
    "Pscm.Misc.c81_box",
    "Pscm.Misc.c81_create",
    "Pscm.Misc.c81_not_variable"
   ],
   "note": "every history of variable operations"
  },
  {
   "property": "C82",
   "status": "proved",
   "theorems": [
    "Pscm.Misc.c82_types",
    "Pscm.Misc.c82_limit",
    "Pscm.Misc.c82_make",
    "Pscm.Misc.c82_data",
    "Pscm.Misc.c82_scheme",
    "Pscm.Misc.c82_overflow_counterexample"
   ],
   "note": "every history of type creations, constructions and field assignments; beyond the claim: a number near the least long used as a tag is undefined behaviour instead of an error (counterexample)"
  },
  {
   "property": "C83",
   "status": "proved",
   "theorems": [
    "Pscm.Misc.c83_copy_positions",
    "Pscm.Misc.c83_error_unchanged",
    "Pscm.Misc.c83_enable",
    "Pscm.Misc.c83_disable_partial",
    "Pscm.Misc.c83_restore",
    "Pscm.Misc.c83_set_keywords",
    "Pscm.Misc.c83_set_counterexample",
    "Pscm.Misc.c83_disable_counterexample",
    "Pscm.Misc.c83_keyword_counterexample"
   ],
   "note": "the invariant is proved for every history with any arguments; the effects of the calls as well, with the stated side condition on the keywords option; counterexamples to stronger readings"
  },
  {
   "property": "C84",
   "status": "proved",
   "theorems": [
    "Pscm.Ev.c84_usable",
    "Pscm.Ev.c84_no_escape",
    "Pscm.Ev.c84_catch_counterexample",
    "Pscm.Ev.c84_mixed_counterexample",
    "Pscm.Ev.c84_eval"
   ],
   "note": "For every history of calls that return (an evaluation with undefined behaviour, C62, has no afterwards). Also proved: errors never escape the interface; stronger claims are false: after 98 errors that crossed a catch, (catch ...) fails; after 99 such pscm_eval calls pscm_eval_string fails on constants (counterexamples)"
  },
  {
   "property": "C85",
   "status": "partial",
   "theorems": [
    "Pscm.c85_mul_exact",
    "Pscm.c85_ratio_add_aborts",
    "Pscm.c85_div_exact",
    "Pscm.c85_reciprocal"
   ],
   "note": "FALSE for + - and comparisons: a ratio operand trips an assert; * and / are exact and canonical"
  },
  {
   "property": "C86",
   "status": "proved",
   "theorems": [
    "Pscm.c86_encapsulation"
   ],
   "note": ""
  },
  {
   "property": "C87",
   "status": "partial",
   "theorems": [
    "Pscm.c87_grammar",
    "Pscm.c87_whole",
    "Pscm.c87_counterexample"
   ],
   "note": "every text of the grammar Written; FALSE for a comma form outside a list or abbreviation, a blank between a quotation mark and a comma, and a comma after ,@ (counterexamples: read errors)"
  },
  {
   "property": "C88",
   "status": "proved",
   "theorems": [
    "Pscm.c88_threshold",
    "Pscm.c88_when",
    "Pscm.c88_bound"
   ],
   "note": "every history with well-formed requests (sizes as in C76); live bytes below 2^53 so that the factor 1.5 in double is exact"
  },
  {
   "property": "C89",
   "status": "proved",
   "theorems": [
    "Pscm.c89_initial",
    "Pscm.c89_scope",
    "Pscm.c89_reachable",
    "Pscm.c89_procedure"
   ],
   "note": "builtins are assumed not to invent references to environments"
  },
  {
   "property": "C90",
   "status": "partial",
   "theorems": [
    "Pscm.c90_load",
    "Pscm.c90_unreadable",
    "Pscm.c90_counterexample"
   ],
   "note": "FALSE for a file without expressions: it is an error, as if the file did not exist (counterexample)"
  },
  {
   "property": "C91",
   "status": "partial",
   "theorems": [
    "Pscm.c91_persists",
    "Pscm.c91_unique",
    "Pscm.c91_resolve",
    "Pscm.c91_registers",
    "Pscm.c91_once",
    "Pscm.c91_reenter",
    "Pscm.c91_enter",
    "Pscm.c91_counterexample"
   ],
   "note": "FALSE in one respect: a module whose file fails to load is registered nevertheless and never loaded again (counterexample)"
  },
  {
   "property": "C92",
   "status": "proved",
   "theorems": [
    "Pscm.c92_variable",
    "Pscm.c92_module",
    "Pscm.c92_reference"
   ],
   "note": "A reference from the same environment needs that the current module is the same"
  },
  {
   "property": "C93",
   "status": "partial",
   "theorems": [
    "Pscm.c93_resolve",
    "Pscm.c93_use",
    "Pscm.c93_current",
    "Pscm.c93_set_current",
    "Pscm.c93_current_module",
    "Pscm.c93_module_p",
    "Pscm.c93_counterexample",
    "Pscm.c93_internal_counterexample"
   ],
   "note": "%load-path a list of strings. FALSE: after an error in the file the half-loaded module stays the current one; definitions inside procedures of the file define variables of the module (counterexamples)"
  },
  {
   "property": "C94",
   "status": "partial",
   "theorems": [
    "Pscm.c94_options_partial",
    "Pscm.c94_counterexample_order",
    "Pscm.c94_counterexample_list"
   ],
   "note": "Imports before exports, requests that return. FALSE: options after #:export are taken as exports; the usual #:export (x y) is ignored (counterexamples)"
  },
  {
   "property": "C95",
   "status": "partial",
   "theorems": [
    "Pscm.c95_expand1",
    "Pscm.c95_unchanged",
    "Pscm.c95_expand_partial",
    "Pscm.c95_agrees_partial",
    "Pscm.c95_counterexample"
   ],
   "note": "Top-level macros; no expansion identical to its call; agreement with the evaluator as in C60. FALSE for macros defined inside a body (counterexample)"
  },
  {
   "property": "C96",
   "status": "partial",
   "theorems": [
    "Pscm.c96_defined",
    "Pscm.c96_counterexample"
   ],
   "note": "Exact for references at top level; FALSE for local variables (counterexample)"
  },
  {
   "property": "C97",
   "status": "partial",
   "theorems": [
    "Pscm.c97_callcc_partial"
   ],
   "note": "Continuations invoked while the call/cc is active; re-entering a frame that has returned: see C127-C130"
  },
  {
   "property": "C98",
   "status": "partial",
   "theorems": [
    "Pscm.c98_call_partial",
    "Pscm.c98_unique",
    "Pscm.c98_apply",
    "Pscm.c98_not_procedure",
    "Pscm.c98_actual",
    "Pscm.c98_counterexample"
   ],
   "note": "Builtins: complete; closures: values that evaluate to themselves. FALSE otherwise: a closure gets the values of the arguments taken as expressions (c98_actual, for all arguments; counterexample)"
  },
  {
   "property": "C99",
   "status": "partial",
   "theorems": [
    "Pscm.c99_define_partial",
    "Pscm.c99_lookup",
    "Pscm.c99_module_lookup",
    "Pscm.c99_same_as_define",
    "Pscm.c99_counterexample"
   ],
   "note": "FALSE for names bound in the global environment, such as builtins: the definition has no effect on references (counterexample)"
  },
  {
   "property": "C100",
   "status": "partial",
   "theorems": [
    "Pscm.c100_required",
    "Pscm.c100_optional_partial",
    "Pscm.c100_counterexample"
   ],
   "note": "Up to three required arguments: complete. FALSE: four required arguments can never be called, and with optional or rest arguments nothing is checked (counterexamples)"
  },
  {
   "property": "C101",
   "status": "partial",
   "theorems": [
    "Pscm.c101_each",
    "Pscm.c101_last_partial",
    "Pscm.c101_missing",
    "Pscm.c101_counterexample",
    "Pscm.c101_parse_counterexample"
   ],
   "note": "c101_each is exact for every readable file; FALSE: errors do not stop the evaluation and are lost, and a parse error is not caught (counterexamples)"
  },
  {
   "property": "C102",
   "status": "partial",
   "theorems": [
    "Pscm.c102_classes",
    "Pscm.c102_disjoint",
    "Pscm.c102_numbers_partial",
    "Pscm.c102_not",
    "Pscm.c102_constructors",
    "Pscm.c102_counterexample"
   ],
   "note": "Complete for the class predicates. FALSE for integer? and rational? of flonums: (integer? 2.0) is #f (counterexample)"
  },
  {
   "property": "C103",
   "status": "partial",
   "theorems": [
    "Pscm.c103_file_input",
    "Pscm.c103_file_output_partial",
    "Pscm.c103_roundtrip_partial",
    "Pscm.c103_unflushed_counterexample",
    "Pscm.c103_nul_counterexample"
   ],
   "note": "Printed texts without NUL (a displayed NUL is lost: counterexample), one output port per file; without close or flush the file may stay empty (counterexample)"
  },
  {
   "property": "C104",
   "status": "proved",
   "theorems": [
    "Pscm.c104_no_effect",
    "Pscm.c104_input",
    "Pscm.c104_output"
   ],
   "note": "Ports of every kind for the absence of effects; answers for file and string ports"
  },
  {
   "property": "C105",
   "status": "partial",
   "theorems": [
    "Pscm.c105_interleaving",
    "Pscm.c105_string_input",
    "Pscm.c105_string_output_partial"
   ],
   "note": "Soft ports and the initial standard output port excluded from the interleaving theorem; output: texts without NUL, below 2^30 bytes"
  },
  {
   "property": "C106",
   "status": "partial",
   "theorems": [
    "Pscm.c106_start",
    "Pscm.c106_current",
    "Pscm.c106_set",
    "Pscm.c106_counterexample",
    "Pscm.c106_closed_counterexample",
    "Pscm.c106_input_counterexample"
   ],
   "note": "The registers are exact. FALSE: operations without a port ignore them: output goes to stdout, input is an error (counterexamples)"
  },
  {
   "property": "C107",
   "status": "partial",
   "theorems": [
    "Pscm.c107_make",
    "Pscm.c107_output_partial",
    "Pscm.c107_input_partial",
    "Pscm.c107_display_counterexample",
    "Pscm.c107_both_counterexample",
    "Pscm.c107_peek_counterexample"
   ],
   "note": "Holds for write-char, force-output, read-char and closing of one-directional ports. FALSE for display, write, newline, peek-char, read and for writing to read/write ports (counterexamples)"
  },
  {
   "property": "C108",
   "status": "partial",
   "theorems": [
    "Pscm.c108_defined_partial",
    "Pscm.c106_closed_counterexample"
   ],
   "note": "Soft-port procedures that return or raise, less than 2^30 bytes written, initial standard output not closed; FALSE after closing that port (counterexample)"
  },
  {
   "property": "C109",
   "status": "partial",
   "theorems": [
    "Pscm.c109_arguments",
    "Pscm.c109_input_file",
    "Pscm.c109_output_file_partial",
    "Pscm.c109_input_string",
    "Pscm.c109_output_string_partial",
    "Pscm.c109_error_counterexample"
   ],
   "note": "Output as in C103 and C105. If the procedure raises an error the port stays open and text may be lost (counterexample)"
  },
  {
   "property": "C110",
   "status": "partial",
   "theorems": [
    "Pscm.Dbg.c110_error_unchanged",
    "Pscm.Dbg.c110_restore",
    "Pscm.Dbg.c110_enable",
    "Pscm.Dbg.c110_disable_partial",
    "Pscm.Dbg.c110_set_int",
    "Pscm.Dbg.c110_set_file",
    "Pscm.Dbg.c110_names",
    "Pscm.Dbg.c110_set_counterexample",
    "Pscm.Dbg.c110_disable_counterexample"
   ],
   "note": "FALSE: (debug-set! flag #f) has no effect; disabling an option with a number has no effect, disabling show-file-name with a symbol as value is an error (counterexamples)"
  },
  {
   "property": "C111",
   "status": "partial",
   "theorems": [
    "Pscm.Repl.c111_complete",
    "Pscm.Repl.c111_session_partial",
    "Pscm.Repl.c111_multiline",
    "Pscm.Repl.c111_data_partial",
    "Pscm.Repl.c111_ends",
    "Pscm.Repl.c111_stuck_counterexample",
    "Pscm.Repl.c111_counterexample",
    "Pscm.Repl.c111_nul_counterexample"
   ],
   "note": "Exact for sessions in which each complete text holds one expression, lines up to 4094 bytes. FALSE: an unmatched ) makes the REPL deaf for ever; a comment line, two expressions on a line or a string over two lines end the process (counterexamples)"
  },
  {
   "property": "C112",
   "status": "partial",
   "theorems": [
    "Pscm.Cli.c112_file",
    "Pscm.Cli.c112_help",
    "Pscm.Cli.c112_duplicate",
    "Pscm.Cli.c112_missing",
    "Pscm.Cli.c112_run",
    "Pscm.Cli.c112_unreadable",
    "Pscm.Cli.c112_exit_partial",
    "Pscm.Cli.c112_error_counterexample",
    "Pscm.Cli.c112_version_counterexample",
    "Pscm.Cli.c112_exit_counterexample"
   ],
   "note": "Argument handling exact for all vectors. FALSE: a script whose expressions all fail prints nothing and succeeds; -v and --version are taken as files; statuses are cut to 8 bits (counterexamples)"
  },
  {
   "property": "C113",
   "status": "partial",
   "theorems": [
    "Pscm.Thr.c113_message_partial",
    "Pscm.Thr.c113_defined",
    "Pscm.Thr.c113_counterexample"
   ],
   "note": "Exact up to 1023 bytes; FALSE beyond 1025 bytes: the message is written outside its buffer (c113_defined: exactly when; counterexample)"
  },
  {
   "property": "C114",
   "status": "partial",
   "theorems": [
    "Pscm.Thr.c114_transparent_partial",
    "Pscm.Thr.c114_balanced",
    "Pscm.Thr.c114_counterexample",
    "Pscm.Thr.c114_leak_counterexample"
   ],
   "note": "FALSE: the handler is never called (proved for all programs), and a throw that leaves a lazy catch leaks its slot. A lazy catch otherwise changes nothing"
  },
  {
   "property": "C115",
   "status": "proved",
   "theorems": [
    "Pscm.c115_fold",
    "Pscm.c115_fold_stop",
    "Pscm.c115_sum",
    "Pscm.c115_product"
   ],
   "note": "Sum and product for exact integers whose partial results fit 64 bits (overflow: C01); the order of evaluation for all folding builtins"
  },
  {
   "property": "C116",
   "status": "partial",
   "theorems": [
    "Pscm.Loc.c116_read",
    "Pscm.Loc.c116_expansion_partial",
    "Pscm.Loc.c116_shared_fails",
    "Pscm.Loc.c116_counterexample"
   ],
   "note": "Expansions that do not hold an argument object at the place it has in the call. FALSE otherwise: the file name is used after it is freed (c116_shared_fails: always; counterexample)"
  },
  {
   "property": "C117",
   "status": "partial",
   "theorems": [
    "Pscm.Loc.c117_position",
    "Pscm.Loc.c117_position_lost",
    "Pscm.Loc.c117_position_short",
    "Pscm.Loc.c117_error",
    "Pscm.Loc.c117_type_error"
   ],
   "note": "Exact texts for all inputs, no write outside a buffer; but a file name of 511 bytes or more loses line and column"
  },
  {
   "property": "C118",
   "status": "partial",
   "theorems": [
    "Pscm.Loc.c118_text",
    "Pscm.Loc.c118_report_partial",
    "Pscm.Loc.c118_shown",
    "Pscm.Loc.c118_stale",
    "Pscm.Loc.c118_deep",
    "Pscm.Loc.c118_unlocated"
   ],
   "note": "Evaluations without errors, at most 100 deep, all located. FALSE otherwise: caught errors leave entries for good, deeper nesting and expressions without position remove entries of others"
  },
  {
   "property": "C119",
   "status": "partial",
   "theorems": [
    "Pscm.c119_if_partial",
    "Pscm.c119_call_nests",
    "Pscm.c119_linear",
    "Pscm.c119_runs"
   ],
   "note": "Holds for if. FALSE for calls: the last body expression is evaluated in a nested invocation (c119_call_nests), so a tail-recursive loop over n elements needs depth n + 4 (c119_linear)"
  },
  {
   "property": "C120",
   "status": "partial",
   "theorems": [
    "Pscm.Code.c120_unchanged_partial",
    "Pscm.Code.c120_overwritten",
    "Pscm.Code.c120_counterexample"
   ],
   "note": "For code without builtin objects in operator position (code read from text has none). FALSE otherwise: the argument expressions are overwritten by their values (c120_overwritten; counterexample)"
  },
  {
   "property": "C121",
   "status": "partial",
   "theorems": [
    "Pscm.Smb.c121_tags",
    "Pscm.Smb.c121_equal",
    "Pscm.Smb.c121_print",
    "Pscm.Smb.c121_apply_partial",
    "Pscm.Smb.c121_variable_fails"
   ],
   "note": "FALSE when the smob is called through a variable: always an error (c121_variable_fails)"
  },
  {
   "property": "C122",
   "status": "partial",
   "theorems": [
    "Pscm.Msr.c122_bound",
    "Pscm.Msr.c122_binder",
    "Pscm.Msr.c122_nested",
    "Pscm.Msr.c122_terminates",
    "Pscm.Msr.c122_guard_partial",
    "Pscm.Msr.c122_error_fails"
   ],
   "note": "Termination without autoloads. FALSE after an error in a binder: no binder is ever called again (c122_error_fails, for all later sessions)"
  },
  {
   "property": "C123",
   "status": "partial",
   "theorems": [
    "Pscm.Msr.c123_unlisted",
    "Pscm.Msr.c123_loads",
    "Pscm.Msr.c123_failed",
    "Pscm.Msr.c123_option_partial",
    "Pscm.Msr.c123_option_fails"
   ],
   "note": "Lookups exact. FALSE for the option syntax unless #:autoload comes last: the names and keywords of later options are listed too (c123_option_fails)"
  },
  {
   "property": "C124",
   "status": "partial",
   "theorems": [
    "Pscm.Rp.c124_lines_partial",
    "Pscm.Rp.c124_columns_partial",
    "Pscm.Rp.c124_datum",
    "Pscm.Rp.c124_own",
    "Pscm.Rp.c124_lines_counterexample",
    "Pscm.Rp.c124_columns_counterexample",
    "Pscm.Rp.c124_shared_counterexample"
   ],
   "note": "Lines: texts without backslash-newline; columns: also without double quote, { and #:. FALSE otherwise (counterexamples); #t, #f and () share one position"
  },
  {
   "property": "C125",
   "status": "partial",
   "theorems": [
    "Pscm.Rp.c125_lines",
    "Pscm.Rp.c125_error_partial",
    "Pscm.Rp.c125_column",
    "Pscm.Rp.c125_head_partial",
    "Pscm.Rp.c125_caret_fails",
    "Pscm.Rp.c125_frame_caret_fails",
    "Pscm.Rp.c125_more_counterexample"
   ],
   "note": "Lines and column exact. FALSE: the caret is always left of the byte by the digits of the line number (c125_caret_fails, for all inputs); the number of hidden frames is always 20"
  },
  {
   "property": "C126",
   "status": "partial",
   "theorems": [
    "Pscm.Rp.c126_balanced_partial",
    "Pscm.Rp.c126_unfinished_partial",
    "Pscm.Rp.c126_shown",
    "Pscm.Rp.c126_leak",
    "Pscm.Rp.c126_hidden_counterexample",
    "Pscm.Rp.c126_finished_counterexample",
    "Pscm.Rp.c126_popped_counterexample",
    "Pscm.Rp.c126_stale_counterexample"
   ],
   "note": "Texts without vectors, (), quoted characters (and strings, for the balance). FALSE otherwise: () leaves its frame for ever (c126_leak), strings pop two, the innermost list is hidden, and frames outlive their text, so that a report reads outside its buffer"
  },
  {
   "property": "C127",
   "status": "partial",
   "theorems": [
    "Pscm.Cm.c127_resume_partial",
    "Pscm.Cm.c127_safe",
    "Pscm.Cm.c127_words",
    "Pscm.Cm.c127_base",
    "Pscm.Cm.c127_negative_fails",
    "Pscm.Cm.c127_unset_fails",
    "Pscm.Cm.c127_host_counterexample"
   ],
   "note": "Complete while the program stays below cont_base. FALSE otherwise: cont_base is fixed once, during the initialisation, and a host that evaluates from a shallower frame has undefined behaviour at call/cc"
  },
  {
   "property": "C128",
   "status": "partial",
   "theorems": [
    "Pscm.Re.c128_fresh_partial",
    "Pscm.Re.c128_two",
    "Pscm.Re.c128_backtracking",
    "Pscm.Re.c128_stale_fails",
    "Pscm.Re.c128_counterexample"
   ],
   "note": "Holds for at most two operands, for backtracking, and for all fresh points. FALSE for all other points: the value passed is ignored (proved for all of them)"
  },
  {
   "property": "C129",
   "status": "partial",
   "theorems": [
    "Pscm.Re.c129_bindings_partial",
    "Pscm.Re.c129_shared_fails",
    "Pscm.Re.c129_order_counterexample",
    "Pscm.Re.c129_assign_counterexample"
   ],
   "note": "Parameters bound correctly in depth-first histories. FALSE: all activations share one environment, so earlier closures see their variables change (proved for every such history)"
  },
  {
   "property": "C130",
   "status": "partial",
   "theorems": [
    "Pscm.Re.c130_once_partial",
    "Pscm.Re.c130_next",
    "Pscm.Re.c130_after_fails",
    "Pscm.Re.c130_skip_counterexample"
   ],
   "note": "Holds when every application returns once. FALSE otherwise: elements are skipped, and after map has returned freed memory is read (proved for every history)"
  },
  {
   "property": "C131",
   "status": "partial",
   "theorems": [
    "Pscm.Lst.c131_roundtrip",
    "Pscm.Lst.c131_terminated",
    "Pscm.Lst.c131_out",
    "Pscm.Lst.c131_truncated_fails",
    "Pscm.Lst.c131_long_fails"
   ],
   "note": "Texts of less than 2^31 - 1 bytes. FALSE otherwise: from 2^32 bytes on they are silently cut, below that the process is aborted or undefined"
  },
  {
   "property": "C132",
   "status": "partial",
   "theorems": [
    "Pscm.Itr.c132_fold",
    "Pscm.Itr.c132_static",
    "Pscm.Itr.c132_current_partial",
    "Pscm.Itr.c132_module_map",
    "Pscm.Itr.c132_stale_counterexample"
   ],
   "note": "Everything but the last clause for all procedures; the last clause for procedures that remove at most the key they are called with. FALSE otherwise: removed entries are passed (counterexample)"
  },
  {
   "property": "C133",
   "status": "partial",
   "theorems": [
    "Pscm.c133_last",
    "Pscm.c133_safe",
    "Pscm.c133_kept",
    "Pscm.c133_dangling",
    "Pscm.c133_leak",
    "Pscm.c133_eval_null",
    "Pscm.c133_uncaught",
    "Pscm.c133_stale_counterexample",
    "Pscm.c133_file_counterexample"
   ],
   "note": "Keys, messages, memory: for all histories. FALSE: a text returned before is deleted by the next error, always (c133_dangling); a null answer without error leaves the old error in place; pscm_eval_file hides all errors but that of the last expression"
  },
  {
   "property": "C134",
   "status": "partial",
   "theorems": [
    "Pscm.c134_call_partial",
    "Pscm.c134_error_fails",
    "Pscm.c134_not_module",
    "Pscm.c134_define_module_partial",
    "Pscm.c134_define_module_fails",
    "Pscm.c134_use",
    "Pscm.c134_import",
    "Pscm.c134_name_error"
   ],
   "note": "Functions that return. FALSE otherwise: an error or jump out of the function leaves its module current, also after the error has been reported to the host (c134_error_fails, c134_define_module_fails: always)"
  },
  {
   "property": "C135",
   "status": "partial",
   "theorems": [
    "Pscm.c135_bound",
    "Pscm.c135_macros",
    "Pscm.c135_entered_partial",
    "Pscm.c135_current_module_fails",
    "Pscm.c135_arity"
   ],
   "note": "All builtins but current-module. FALSE for current-module: its C function has one parameter and is called with none"
  },
  {
   "property": "C136",
   "status": "partial",
   "theorems": [
    "Pscm.SmS.c136_data",
    "Pscm.SmS.c136_types",
    "Pscm.SmS.c136_errors",
    "Pscm.SmS.c136_tag_overflow"
   ],
   "note": "All but the last clause for all histories. FALSE: a tag below -2^63 + 2^24 is undefined behaviour (signed overflow), in every state"
  },
  {
   "property": "C137",
   "status": "partial",
   "theorems": [
    "Pscm.c137_kept",
    "Pscm.c137_registered",
    "Pscm.c137_host_fails",
    "Pscm.c137_options_fail",
    "Pscm.Gc.Demo.c137_host_counterexample"
   ],
   "note": "Registered variables (up to 8192), global environment, registers, stack below the marker. FALSE: pscm_init does not set the marker, so in a host program the stack is never scanned and every collection frees what only the stack holds; the values of the options keywords and show-file-name are no roots"
  },
  {
   "property": "C138",
   "status": "partial",
   "theorems": [
    "Pscm.c138_value_partial",
    "Pscm.c138_error_partial",
    "Pscm.c138_redefine_fails",
    "Pscm.c138_call_datum_fails",
    "Pscm.c138_factorial",
    "Pscm.c138_flip",
    "Pscm.c138_unique",
    "Pscm.c145_value_partial",
    "Pscm.c145_error_partial"
   ],
   "note": "All programs that do not define a procedure with the name of a builtin by (define (f ...) ...), with one expression in the body of each named let, with do variables that are not bound outside and boolean tests (otherwise C52), with templates that are not nested, with map and for-each over lists of the same length, for-each with a Scheme procedure of that number of parameters and without empty lists as elements (the code evaluates only the first: c49_counterexample) and without internal (define (f ...) ...) (the code makes them global: C40). FALSE for the former: such a definition is never seen (c138_redefine_fails: always); and for calls of a datum without arguments, which give the datum (c138_call_datum_fails)"
  },
  {
   "property": "C139",
   "status": "proved",
   "theorems": [
    "Pscm.c139_use",
    "Pscm.c139_value",
    "Pscm.c139_error",
    "Pscm.c139_read",
    "Pscm.c139_debug",
    "Pscm.c139_read_error",
    "Pscm.c139_debug_error",
    "Pscm.c139_session"
   ],
   "note": "Literal arguments: constants and quoted symbols that are not names of the six macros; the builtins the macros use not redefined. The option builtins are those of C83 and C110"
  },
  {
   "property": "C140",
   "status": "partial",
   "theorems": [
    "Pscm.c140_script_partial",
    "Pscm.c140_error_partial",
    "Pscm.c140_empty_fails",
    "Pscm.c140_session_partial",
    "Pscm.c140_session_error_partial",
    "Pscm.c140_session_empty",
    "Pscm.c140_text",
    "Pscm.c140_readback"
   ],
   "note": "Programs as in C138. FALSE for the empty program: exit status 1 and a message that the file cannot be read (c140_empty_fails: always). What the forms after an erroneous one print is left open (c140_error_partial) where the semantics does not say which effects precede the error: too many arguments, an error in the list arguments of map and for-each; so is the text of procedures"
  },
  {
   "property": "C141",
   "status": "partial",
   "theorems": [
    "Pscm.c141_values_partial",
    "Pscm.c141_error_partial",
    "Pscm.c141_split",
    "Pscm.c141_empty_fails"
   ],
   "note": "Programs as in C138. FALSE for texts without expressions: the answer is the null pointer, although the comment in the code says unspecified (c141_empty_fails: always)"
  },
  {
   "property": "C142",
   "status": "partial",
   "theorems": [
    "Pscm.c142_script_partial",
    "Pscm.c142_display_list_fails"
   ],
   "note": "Programs as in C138; strings without NUL. FALSE for display of lists: strings and characters in them are printed as write does (c142_display_list_fails: always for strings). Errors as in C140; the text of procedures is left open"
  },
  {
   "property": "C143",
   "status": "partial",
   "theorems": [
    "Pscm.c143_session_partial"
   ],
   "note": "Programs as in C138, one form per entry, entries as in C111 (lines that fit the buffers; a parse error ends the process: C111). The line that shows the expression is what print_ast prints for the datum read. Values that contain strings in lists and the text of procedures are as in C142"
  },
  {
   "property": "C144",
   "status": "partial",
   "theorems": [
    "Pscm.c144_file_partial",
    "Pscm.c144_string_partial",
    "Pscm.c144_fallback",
    "Pscm.c144_closed_fails",
    "Pscm.c144_quit"
   ],
   "note": "Lines of at most 1023 bytes (beyond 1025 undefined: C113), output without NUL and below 2^30 bytes; the standard error open if a call stack is printed. FALSE for the last clause: when the program has closed the port of the standard error, every uncaught throw writes to the closed C stream (c144_closed_fails: always)"
  },
  {
   "property": "C145",
   "status": "proved",
   "theorems": [
    "Pscm.c145_eval",
    "Pscm.c145_quoted",
    "Pscm.c145_anywhere",
    "Pscm.c145_program",
    "Pscm.c145_forms",
    "Pscm.c145_count",
    "Pscm.c145_not_local"
   ],
   "note": "All data and states where eval and quote are the initial ones and the current module is the root module. The comment in the code, that the expression is evaluated in the current environment, is false (c145_not_local). With C138: c145_value_partial and c145_error_partial"
  },
  {
   "property": "C146",
   "status": "partial",
   "theorems": [
    "Pscm.c146_name",
    "Pscm.c146_stable",
    "Pscm.c146_print",
    "Pscm.c146_builtin_fails"
   ],
   "note": "Procedures: all histories. FALSE for builtins: procedure-name is an error for every builtin, although it has a name and prints it (c146_builtin_fails: always)"
  },
  {
   "property": "C147",
   "status": "partial",
   "theorems": [
    "Pscm.c147_value_partial",
    "Pscm.c147_error_partial",
    "Pscm.c147_default_partial"
   ],
   "note": "Programs as in C138; catch with #t at top level, thunk and handler written as lambda expressions, while catch is the builtin. What the handler is called with is left open by the semantics, and so are errors whose preceding effects it leaves open (C140)"
  },
  {
   "property": "C148",
   "status": "partial",
   "theorems": [
    "Pscm.c148_value_partial",
    "Pscm.c148_error_partial",
    "Pscm.c148_program_partial"
   ],
   "note": "Data: 64-bit integers, booleans, characters, symbols without NUL, strings (both below 2^31 - 1 bytes), () and pairs in the representation that cons, list and the reader make. Literals such as (1 . (2 3)) have another one (C13, C15), and where the reference semantics leaves the result open nothing is said (append with an improper last argument, assq on lists with elements that are not pairs, eq? of strings and lists). The same reference semantics is that of the programs of C138, so this ties the tree values of the evaluator model to the models of memory"
  },
  {
   "property": "C149",
   "status": "partial",
   "theorems": [
    "Pscm.c149_value_partial",
    "Pscm.c149_error_partial",
    "Pscm.c149_program_partial"
   ],
   "note": "Data as in C148. Where the reference semantics leaves the result open nothing is said: comparisons and string->symbol of strings with NUL (C33 says what happens), results of 2^31 - 1 bytes and more, number->string with a radix or of the least integer. The procedures that change a string (string-set!, string-fill!) and those that read numbers are not in the list."
  },
  {
   "property": "C150",
   "status": "partial",
   "theorems": [
    "Pscm.c150_value_partial",
    "Pscm.c150_error_partial",
    "Pscm.c150_program_partial",
    "Pscm.c150_program_error_partial"
   ],
   "note": "Data as in C148; numbers are 64-bit integers. Nothing is said where the reference semantics leaves the result open: results that overflow (C01 says what happens), parity, max and min beyond 2^53, non-numbers among the arguments of + and the comparisons (C01, C05). The result is a new object also where the C code returns an argument; numbers have no identity in the specification."
  },
  {
   "property": "C151",
   "status": "partial",
   "theorems": [
    "Pscm.c151_set_car_partial",
    "Pscm.c151_set_cdr_partial",
    "Pscm.c151_circular_partial"
   ],
   "note": "Data in the representation of C148. C12 says what the calls do to the cells, also for other representations and for non-pairs. If the value contains the pair only the pair itself is said to be circular"
  },
  {
   "property": "C152",
   "status": "partial",
   "theorems": [
    "Pscm.c152_remove_partial",
    "Pscm.c152_set_partial",
    "Pscm.c152_assq_set_partial",
    "Pscm.c152_ref_partial",
    "Pscm.c152_list_head_partial"
   ],
   "note": "FALSE in full: assoc-ref returns the first element of the rest of the entry if it is a pair, and #f if it is the empty list (C24); stated with that (refOf). Data as in C148; keys without dotted pairs and without strings that contain NUL; elements that are not pairs are allowed (not for assoc-ref)"
  },
  {
   "property": "C153",
   "status": "partial",
   "theorems": [
    "Pscm.c153_string_set_partial"
   ],
   "note": "Data in the representation of C148. C31 says what the call does to the bytes, also for other arguments"
  }
 ]
}