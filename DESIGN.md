# A Lean 4 model of PikachuHy/pscm

The subject is the C++ Scheme interpreter in `/repo/src/c` (Debug build, as the project's presets configure it: `assert` is live).
Nothing here runs the code: every model definition cites the lines it was read from, and says where it simplifies.

## 1. Architecture of the model

| Layer | Model modules (`lean/Verif/…`) | Property modules | Code |
|---|---|---|---|
| Outcomes | `Basic`, `Heap` | | `error.cc` (`eval_error`, `type_error` raise a Scheme exception), C++ undefined behaviour, `assert` |
| Numbers | `Num` | `NumProps`, `NumProps2`, `DataProps2` | `number.cc`, numeric parts of `string.cc` |
| Pairs and lists | `ListM` on a heap of `SCM_List` nodes | `ListProps`, `ListProps2`, `ListProps3` | `list.cc`, `predicate.cc` |
| Equality | `Eq` | `EqProps` | `eq.cc` |
| Association lists, hash tables, vectors | `Alist`, `Hash`, `Vector` | `AlistProps`, `HashProps`, `VectorProps` | `alist.cc`, `hash_table.cc`, `vector.cc` |
| Strings, characters, symbols | `Str` | `StrProps`, `StrProps2` | `string.cc`, `char.cc`, `symbol.cc` |
| Evaluator | `Ev` (state, environments, errors), `EvMod` (modules), `EvStep` (special forms, application, macros, control), `EvApi`, `EvApi2` | `Ev…Props` | `eval.cc`, `environment.cc`, `procedure.cc`, `function.cc`, `apply.cc`, `define.cc`, `let.cc`, `do.cc`, `cond.cc`, `case.cc`, `map.cc`, `for_each.cc`, `delay.cc`, `values.cc`, `quasiquote.cc`, `macro.cc`, `throw.cc`, `dynwind.cc`, `continuation.cc`, `module.cc`, `load.cc`, `pscm_api.cc` |
| Reader and printer | `Reader` | `ReaderProps`, `ReaderProps2` | `parse.cc`, `print.cc` |
| Collector | `Gc` | `GcProps`, `GcProps2` | `gc.cc` |
| Ports | `Port` (one string port), `Ports`, `PortsCall` (all ports, streams, files) | `PortProps`, `PortReadProps`, `PortsProps`, `PortsProps2`–`4` | `port.cc`, port output of `string.cc` |
| Type predicates | `Pred` | `PredProps` | `predicate.cc` |
| Variables, smobs, reader options | `Misc` | `MiscProps`, `MiscProps2` | `variable.cc`, `smob.cc`, `read.cc` |
| Smob functions | `SmobCall` | `SmobCallProps` | `smob.cc`, `eq.cc`, `print.cc`, `eval.cc` |
| Module binders and autoloads | `ModSearch` | `ModSearchProps` | `module.cc` |
| Code as memory; depth of evaluation | `CodeMem`; `EvDepth` | `CodeMemProps`; `EvDepthProps` | `eval.cc` |
| Continuations: stack copies, re-entered calls | `ContMem`, `ReEnter` (`ReEnterLemmas`) | `ContMemProps`, `ReEnterProps` | `continuation.cc`, `eval_list_with_env`, `apply_procedure`, `eval_map` |
| Text passed between C and Scheme | `LocStr` | `LocStrProps` | `string.cc`, `symbol.cc` (C API) |
| Tables that change while they are folded | `HashIter` (`HashIterSpec`, `HashIterLemmas`) | `HashIterProps` | `hash_table.cc`, `scm_c_module_map` |
| The host's view of errors | `LastErr` (`LastErrSpec`, `LastErrLemmas`) | `LastErrProps` | `error.cc`, `pscm_api.cc` |
| Modules from C | `ModApi` | `ModApiProps` | `module.cc` (the `scm_c_*_module` functions) |
| The table of builtins, the initial state | `Registry` | `RegistryProps` | `init.cc`, `pscm.h`, all `init_*` functions |
| The core language against a reference semantics | `RefPrims` (specification: `RefSem`, `RefStd`; `RefRel`, `RefSim`–`RefSim4`, `RefKeys`, `RefMap`, `RefDo`, `RefQuasi`, `RefTop`, `RefImpl`–`RefImpl3`, `RefImplText`, `RefImplData`) | `RefProps`, `RefTextProps` | the evaluator as a whole |
| Smobs from Scheme | `SmobScm` | `SmobScmProps` | `smob.cc` (the `scm_c_*` functions) |
| The option macros | `OptMacro` (`OptMacro2`, `OptMacro3`, `RefMono`) | `OptMacroProps` | the macros of `read.cc` and `debug.cc`, run by the evaluator |
| Program texts end to end | `Script` (`ScriptSpec`, `ScriptText`, `ScriptRun`) | `ScriptProps` | `do_eval`, `my_eval` (`main.cc`), `pscm_eval_string`: reader, evaluator and printer together |
| Program texts from C | `CStr` | `CStrProps` | `scm_c_eval_string` (`eval.cc`) |
| Programs that print | `Console` (`RefOut`, `ConsoleSpec`, `ConsoleRun`) | `ConsoleProps` | `scm_c_display`, `scm_c_write`, `scm_c_newline` without a port (`string.cc`), `do_eval` |
| Dialogues with the REPL | `ReplEval` (`ReplEvalSpec`) | `ReplEvalProps` | `repl` (`repl.cc`) with `pscm_eval` as the evaluation, `eval` (`main.cc`) |
| The roots of a collection | `GcRoots` | `GcRootsProps` | `gc.cc` (registration, root scan), `main.cc`, `init.cc` |
| Reader positions, parse stack, error report | `RdPos`, `RdReport` (`RdPosErase`, `RdPosLemmas`, `RdPosNamed`, `RdStack`) | `RdPosProps`, `RdReportProps`, `RdStackProps` | `parse.cc` |
| Debug options | `Debug` | `DebugProps` | `debug.cc` |
| REPL, command line | `Repl`, `Cli` | `ReplProps`, `CliProps` | `repl.cc`, `../main.cc`, `exit.cc` |
| Uncaught throws, lazy catches | `Throw` | `ThrowProps` | `throw.cc` |
| Names of procedures | `ProcName` | `ProcNameProps` | `scm_c_procedure_name` (`procedure.cc`), the naming of procedures by `eval_define` (`define.cc`) and `eval_lambda` (`eval.cc`), their printed form (`print.cc`), on histories of definitions |
| The builtin `eval` | `EvStep` | `EvEvalProps` | `scm_c_eval` (`eval.cc`) in the model of the evaluator |
| Guarded evaluations | `EvStep`, `RefCatchSpec`, `RefCatch` | `RefCatchProps` | `catch` with `#t` (`throw.cc`) in programs of the reference semantics |
| List builtins on data | `MemCall` (specification: `MemDataSpec`; `MemData`–`MemData3`) | `MemDataProps` | the functions of `list.cc`, `alist.cc`, `eq.cc`, `predicate.cc` by name, against the reference semantics |
| Characters and strings on data | `MemText` (specification: `MemDataSpec`; `MemTextLemmas`) | `MemTextProps`, `MemTextProps2` | the functions of `string.cc`, `char.cc`, `symbol.cc` by name, against the reference semantics |
| Numbers on data, programs of all builtins | `MemNum`, `MemProg` (specification: `MemDataSpec`; `MemNumLemmas`) | `MemNumProps`, `MemProgProps` | the functions of `number.cc` by name, against the reference semantics; `stdMem`: every builtin of the reference semantics |
| Assignments to pairs, on data | as C12 (specification: `MemDataSpec`, `MemSetSpec`) | `MemSetProps` | what every object of the heap holds before and after `set-car!` and `set-cdr!` |
| Association lists on data | as C24, C25, C16 (specification: `MemAlistSpec`) | `MemAlistProps` | `assoc-set!`, `assoc-remove!`, `assoc-ref`, `list-head` on the data of `MemDataSpec` |
| Assignments to strings, on data | as C31 (specification: `MemDataSpec`, `MemStrSpec`) | `MemStrProps` | what every object of the heap holds before and after `string-set!` |
| Reports on the error port | `ErrPort` (`ErrPortSpec`, `ErrPortLemmas`) | `ErrPortProps` | `handler_message`, `write_to_port`, `scm_handle_by_message_noexit`, `scm_uncaught_throw` (`throw.cc`) on the ports of `Ports` |
| Source positions, message texts, evaluation stack | `SrcLoc` | `SrcLocProps` | `source_location.cc`, `error.cc`, `macro.cc` |

Outcomes are explicit.  A modelled function ends with a value, a Scheme error (an exception that `catch` can see), an abort (`assert`,
`exit`), undefined behaviour (signed overflow, wild or null access, jump into a dead frame), or — where a loop's termination is itself a
claim — out of fuel.  The evaluator has the further outcome `unmod` for what is outside the model; it never invents a result.

Each area has a model file, lemma files and one or more `…Props` files.  The `…Props` files contain the property theorems together with the
small independent vocabulary they use (`…Spec` files where it is larger: `EvSpec`, `ReaderSpec`, `GcSpec`, `HeapSpec`, `HashSpec`, `StrSpec`, `EqSpec`, `PortsSpec`), and beside each
theorem an `example` (or a theorem in a `Demo` namespace) showing that a concrete non-trivial case meets its hypotheses.

Where the unchanged code violates the property, the negation is proved on a concrete witness (`…_counterexample`, or a descriptive name such as
`c75_odd_size`), and the part that does hold is proved for all inputs under the suffix `_partial`.

### Techniques

* **Data structures** (C01–C37, C85): C++ loops as structural recursion with fuel where termination is not evident; `Chain` and similar
  relations link an address to the list of its elements; theorems by induction on that list, with frame statements for everything untouched;
  containers by refinement over arbitrary operation histories.
* **Evaluator** (C38–C65, C70–C73, C84, C86, C89–C97): `step P rec t` is one activation of a C++ function with its recursive calls left open; `ev P n`
  closes the recursion with fuel `n`.  `EvMono` proves that results do not depend on the fuel, so `Evals` (“there is an `n` …”) is a relation
  between start and outcome.  Builtins that are not part of the evaluator are an arbitrary family `P : Prims σ` over an arbitrary world `σ`:
  every theorem holds for all of them.  `P` also supplies the file system (what reading a file gives) and may call back
  into the evaluator (`call-with-output-string` and the like).  Derived rules (`EvRules`, `EvApply`) give the evaluation of each form; relations between two
  runs (`EvHide*`: states that differ in hidden frames) give the encapsulation theorems; invariants over all steps (`EvInv`, `EvExt`) give the
  history theorems.
* **Reader** (C66–C69, C87): recursive descent over byte lists, with out-of-bounds access as an outcome; fuel 4·length+4 always suffices;
  round trip by induction on data; the grammar `Written` by induction on derivations.
* **Collector** (C74–C77, C88): block heap with headers, free lists and segments; work-list invariant for the mark phase, tiling invariant for the
  sweep, and both over arbitrary histories of allocation, writes and collections.
* **Ports** (C78–C80, C103–C109): a table of ports over C streams over files; when the C library empties its buffers is an arbitrary function.
  Frame lemmas say which ports and streams an operation touches; the theorems quantify over all programs (lists of operations) from a reachable state.

## 2. Properties, theorems and status

`proved` means the claim as stated in `properties.jsonl` is a theorem about the model; `partial` means it is proved with the restriction in the
last column.  Most restrictions are not gaps of the proof but bugs of the code, with a proved counterexample.

<!-- BEGIN TABLE -->
| Property | Status | Theorems | Scope, and what is missing or false |
|---|---|---|---|
| C01 Integer addition, subtraction and multiplication are exact or undefined, never silently wrong | proved | `c01_plus`, `c01_times`, `c01_minus` | both directions: exact when no running result overflows, undefined behaviour otherwise |
| C02 quotient, remainder and modulo satisfy the division law | proved | `c02_division`, `c02_edges` | all pairs, including zero divisor and the single overflowing pair |
| C03 gcd and lcm are the mathematical gcd and lcm | proved | `c03_gcd`, `c03_gcd_ub`, `c03_lcm` | lcm under the hypothesis that prefix lcms fit in 64 bits |
| C04 Exact division yields a canonical rational | proved | `c04_div`, `c04_div_zero`, `c04_div_unary` | exact integer arguments; float arguments are not covered |
| C05 Numeric comparison chains decide the mathematical order | proved | `c05_compare`, `c05_mixed` | as stated |
| C06 even?/odd? decide parity and are complementary | partial | `c06_parity_partial`, `c06_parity_large`, `c06_counterexample` | FALSE of the code above 2^53: the argument goes through double; counterexample proved; holds up to 2^53 |
| C07 max and min return the largest and smallest argument exactly | partial | `c07_max_min_partial`, `c07_counterexample`, `c07_mixed`, `c07_not_number` | FALSE of the code above 2^53 (through double); counterexample proved; holds up to 2^53 |
| C08 expt is integer power | proved | `c08_expt`, `c08_expt_negative` | as stated |
| C09 abs, zero?, positive?, negative? agree with integer arithmetic | proved | `c09_abs`, `c09_sign` | as stated |
| C10 number->string and string->number are inverse in every radix | partial | `c10_print_partial`, `c10_read`, `c10_roundtrip_partial`, `c10_min_undefined`, `c10_bad_radix`, `c10_ratio` | All 64-bit integers but -2^63 (proved undefined), all radices 2..36; out-of-range numerals are proved to saturate. |
| C11 cons/car/cdr laws | partial | `c11_cons_partial`, `c11_cdr_not_eq`, `c11_circular_counterexample`, `c11_flagged_counterexample`, `c11_cxr_partial`, `c11_cadr_counterexample` | FALSE in full: cons diverges on a circular cdr and mis-cdrs onto a flagged head node (both proved); holds for unflagged acyclic lists, nil and atoms |
| C12 set-car! and set-cdr! update one pair and nothing else | proved | `c12_set_car`, `c12_set_cdr`, `c12_non_pair` | as stated |
| C13 length counts the elements of every proper list | partial | `c13_length_partial`, `c13_length_non_list`, `c13_length_improper`, `c13_counterexample` | proper lists exact; improper lists are counted instead of rejected (counterexample) |
| C14 reverse reverses and allocates fresh structure | partial | `c14_reverse_partial`, `c14_reverse_twice`, `c14_counterexample` | proper lists; improper lists are reversed instead of rejected (counterexample) |
| C15 append concatenates | partial | `c15_append_partial`, `c15_append_improper`, `c15_counterexample` | FALSE for a final improper argument with two or more cars: middle elements dropped (counterexample) |
| C16 list-ref, list-head and list-tail agree | proved | `c16_list_ref`, `c16_list_tail`, `c16_list_head`, `c16_head_tail` | as stated |
| C17 last-pair returns the last pair | partial | `c17_actual`, `c17_last_pair_partial`, `c17_counterexample` | FALSE for odd lengths >= 3 (c17_actual characterises the result for every length) |
| C18 memq, memv and member return the first matching tail | partial | `c18_memq`, `c18_member_partial`, `c18_memv_partial`, `c18_counterexample` | memq full; member on data with canonical lists; memv does not find symbols (counterexample) |
| C19 list? recognises exactly the finite proper lists | partial | `c19_list_p_partial`, `c19_counterexample` | FALSE beyond 10001 nodes: list? answers #f (counterexample) |
| C20 equal? is structural equality of the denoted data | proved | `c20_equal`, `c20_equivalence` | as stated |
| C21 eq? implies eqv? implies equal? | proved | `c21_chain`, `c21_strict` | as stated |
| C22 The equality used by member/assoc/case/hash tables agrees with equal? | partial | `c22_agree_partial`, `c22_counterexample`, `c22_error` | FALSE with dotted pairs in both directions (counterexample); agrees on data with proper undotted lists |
| C23 assq/assv/assoc find the first entry | partial | `c23_assq`, `c23_assoc_partial` | assq full; assoc/assv on keys that are data with canonical lists (they use the legacy equality of C22) |
| C24 assoc-set! then assoc-ref returns the stored value | partial | `c24_assq_set`, `c24_assoc_set_partial`, `c24_counterexample`, `c24_acons` | FALSE of the ref procedures: assoc-ref returns the wrong part of a list value (counterexample); the entry found by assq/assoc afterwards is the stored one |
| C25 assoc-remove! removes the key | partial | `c25_remove_partial`, `c25_counterexample` | FALSE with duplicate keys: only the first entry is removed (counterexample) |
| C26 A hash table behaves as a finite map | partial | `c26_hashq`, `c26_hashv`, `c26_hash_partial`, `c26_counterexample`, `c26_handle_counterexample` | every history, per family, for the key comparison the family implements; FALSE for the Scheme equivalences (hashv does not find eqv? symbols, hashq does not find eq? integers) and when a handle is given a list by set-cdr! (counterexamples) |
| C27 Every key that compares equal hashes equally | partial | `c27_hashq`, `c27_hashv`, `c27_hash_partial`, `c27_counterexample` | hashq/hashv: all keys; hash: integers, strings, symbols, (), booleans, proper lists; FALSE for characters (counterexample) |
| C28 Hash table size equals the number of live keys and fold visits each once | proved | `c28_counts`, `c26_hash_partial` | hashq/hashv all histories; hash- tables in c26_hash_partial for its keys |
| C29 Vector accesses are bounds-checked and read the last write | proved | `c29_ref`, `c29_set`, `c29_non_vector`, `c29_history`, `c29_make`, `c29_length` | as stated |
| C30 vector->list and list->vector are inverse | partial | `c30_vector_to_list_partial`, `c30_list_to_vector`, `c30_inverse_partial`, `c30_counterexample` | holds below 2^31 elements; above, the int loop counter overflows (counterexample) |
| C31 String accessors are bounds-checked and exact | partial | `c31_ref`, `c31_set`, `c31_substring`, `c31_non_string`, `c31_history`, `c31_make_partial`, `c31_make_huge`, `c31_length` | Accessors complete; make-string of 2^31 or more characters is proved undefined. |
| C32 string-append, string->list, list->string, string-length are a monoid homomorphism | partial | `c32_append_partial`, `c32_append_error`, `c32_length`, `c32_string_to_list`, `c32_list_to_string_partial`, `c32_list_to_string_error`, `c32_inverse_partial`, `c32_string` | Partial only in the int length limit (results below 2^31-1 bytes). |
| C33 String comparison is a total order consistent with equality | proved | `c33_trichotomy`, `c33_transitive`, `c33_lexicographic`, `c33_nul_counterexample` | Total preorder for all strings; bytewise lexicographic on NUL-free strings; string=? ignores bytes after a NUL (witness). |
| C34 Case-insensitive string comparison is comparison of the folded strings | partial | `c34_order_partial`, `c34_eq`, `c34_eq_agrees_partial`, `c34_counterexample` | Ordering agrees for 7-bit NUL-free strings; false for bytes >= 128 (signed char comparison), witness proved. |
| C35 char->integer and integer->char are inverse and order preserving | proved | `c35_inverse`, `c35_order`, `c35_case`, `c35_classes` | as stated |
| C36 symbol->string and string->symbol are inverse; symbols with equal names are eq? | partial | `c36_inverse_partial`, `c36_eq`, `c36_nul_counterexample` | Names below 2^31-1 bytes; eq? exact for NUL-free names, NUL witness proved. |
| C37 gensym never repeats | partial | `c37_distinct_partial`, `c37_overflow`, `c37_forgeable` | Histories of fewer than 2^31 calls; the 2^31-th call is proved undefined. |
| C38 Variable lookup is lexical | partial | `c38_reference`, `c38_wf`, `c38_operator_partial`, `c38_counterexample` | Variable references: complete. Operator position: proved in the root module without macros of that name; FALSE in other modules, where the module binding wins over enclosing frames (counterexample) |
| C39 set! changes only the binding it names | partial | `c39_set`, `c39_set_module`, `c39_counterexample` | Lexical bindings complete; module bindings through the current module; FALSE for a procedure of a module called while another module is current (counterexample) |
| C40 A definition inside a procedure body is local to that body | partial | `c40_local_partial`, `c40_counterexample`, `c40_counterexample_module` | (define x e) in a body without module pointer is local; FALSE for (define (f) ...) and for bodies of module files (counterexamples) |
| C41 Evaluation is deterministic and independent of how long it is run | proved | `c41_fuel`, `c41_deterministic` | as stated |
| C42 if evaluates exactly one branch | proved | `c42_if`, `c42_if_no_else` | as stated |
| C43 and/or short-circuit | proved | `c43_and`, `c43_or` | as stated |
| C44 begin and bodies run in order and return the last value | proved | `c44_begin`, `c44_compose` | as stated |
| C45 Procedure application binds parameters to arguments by position | proved | `c45_call`, `c45_call_stop`, `c45_call_terminates`, `c45_operator`, `c45_call_reachable`, `c45_call_stop_reachable`, `c45_call_terminates_reachable` | Arbitrary argument expressions, in every reachable state; hypothesis: builtins do not invent environment references |
| C46 Calling a procedure with too few arguments is an error | partial | `c46_count_partial`, `c46_error_partial`, `c46_counterexample` | Procedures without rest parameter; FALSE with one: too few arguments leave parameters unbound silently (counterexample) |
| C47 Builtins check arity | proved | `c47_arity`, `c47_enter` | as stated |
| C48 let is lambda application | proved | `c48_let`, `c48_let_meaning`, `c48_let_star`, `c48_let_star_nil`, `c48_letrec`, `c48_let_reachable` | as stated |
| C49 Named let keeps its whole body | partial | `c49_loop_nil_partial`, `c49_loop_partial`, `c49_loop_reachable_partial`, `c49_counterexample`, `c49_capture` | Single body expression, names __temp_i unused; FALSE for longer bodies: only the first expression is kept (counterexample); temporaries capture (counterexample) |
| C50 cond selects the first true clause | partial | `c50_cond_partial`, `c50_counterexample` | All clause forms except a test-only clause, which returns #t instead of the test value (counterexample) |
| C51 case selects the clause containing the key | partial | `c51_case_partial`, `c51_key_fails` | Keys and data that are numbers, characters, symbols, booleans or (); compound data compare structurally in the code |
| C52 do iterates simultaneously and does not disturb outer variables | partial | `c52_do_partial`, `c52_do_reachable_partial`, `c52_init_stop`, `c52_overwrites`, `c52_nonboolean` | Loop variables not bound in an enclosing frame, boolean tests; FALSE otherwise: enclosing variables are overwritten, a true non-#t test is a type error (counterexamples) |
| C53 map applies position-wise and stops at the shortest list | proved | `c53_map`, `c53_map_not_procedure` | as stated |
| C54 for-each visits every element | partial | `c54_for_each_partial`, `c54_counterexample`, `c54_rest_counterexample` | Lists of equal length with no () element, procedure with exactly as many parameters as lists; FALSE otherwise: iteration stops at a () element, a rest-parameter procedure receives only the first list (counterexamples) |
| C55 apply passes exactly the given arguments | partial | `c55_apply_partial`, `c55_counterexample` | Leading values self-evaluating; FALSE otherwise: leading values are evaluated twice (counterexample) |
| C56 force evaluates a promise at most once | partial | `c56_force_same`, `c56_first`, `c56_counterexample` | Same value for ever: proved; evaluated once when forcing does not force the same promise; FALSE under re-entrant force: the expression runs twice (counterexample) |
| C57 values/call-with-values deliver the produced values | partial | `c57_values`, `c57_single_partial`, `c57_counterexample` | Multiple values and a single non-list value: proved; FALSE for a single list value: it is spread (counterexample) |
| C58 quasiquote without unquote is quote | partial | `Ev.c58_plain_partial`, `Ev.c58_counterexample` | Well-formed templates; FALSE for an inner splice followed by a dotted tail (counterexample) |
| C59 unquote and unquote-splicing substitute values | partial | `Ev.c59_fill_partial`, `Ev.c59_splice_not_list`, `Ev.c59_counterexample`, `Ev.c59_improper_splice` | Well-formed templates, spliced values proper lists; (unquote) without operand is silently the unspecified value, an improper spliced value loses its dot |
| C60 Macro parameters receive the argument forms unevaluated | partial | `Ev.c60_use_partial`, `Ev.c60_use_stop`, `Ev.c60_count_partial`, `Ev.c60_define_partial`, `Ev.c60_counterexample`, `Ev.c60_atom_counterexample` | Any parameter list except exactly one parameter; expansion a list without heads that are macros of the current frame. FALSE: a single parameter becomes a rest parameter; an expansion that is a symbol is not evaluated (counterexamples) |
| C61 catch runs the handler of the innermost matching catch | partial | `c61_throw_partial`, `c61_uncaught_partial`, `c61_target`, `c61_target_uncaught`, `c61_body`, `c61_catch_partial`, `c61_no_arguments_counterexample` | States whose recorded catches are all still running; (throw key) without arguments calls the handler with an extra () argument (counterexample); recorded catches of returned calls: see C62 |
| C62 catch leaves the catch stack as it found it | partial | `c62_stack_partial`, `c62_returns_partial`, `c62_handled_partial`, `c62_stale_counterexample`, `c62_stale_ub_counterexample`, `c62_exhausted_counterexample` | Restored when the throw was caught by the innermost catch; FALSE when it crosses an inner catch: the inner entry stays behind, a later throw jumps into a dead frame, and 99 crossings exhaust the stack (counterexamples) |
| C63 dynamic-wind runs its guards around the body | proved | `c63_dynamic_wind`, `c63_nested` | as stated |
| C64 Continuation jumps run exactly the guards that are crossed | partial | `c64_jump_partial`, `c64_order_counterexample`, `c64_common_counterexample` | Jumps where at most one wind is left and no wind is common; FALSE otherwise: outs run outermost first and common winds are re-run (counterexamples) |
| C65 A throw out of dynamic-wind runs the out guards | partial | `c65_out_skipped`, `c65_counterexample`, `c65_later_counterexample` | FALSE for every program: c65_out_skipped proves the out guard never runs on a throw |
| C66 The reader terminates and consumes input monotonically | partial | `c66_terminates`, `c66_in_bounds`, `c66_progress`, `c66_eof`, `c66_defined_partial`, `c66_overflow_counterexample`, `c66_program` | Termination, bounds, monotone consumption and end of input are proved for every text; absence of undefined behaviour needs that no numeral has 19 or more digits: 9223372036854775808 overflows a signed integer (counterexample) |
| C67 write followed by read gives back an equal datum | partial | `c67_written_partial`, `c67_roundtrip_partial`, `c67_exact_partial`, `c67_counterexample` | For the fragment Readable; FALSE for -2^63, ratios, keywords, symbols with delimiters, (quote a b), the NUL character (counterexamples); floats are not modelled |
| C68 Strings survive write/read | partial | `c68_string_partial`, `c68_counterexample` | The exact set of strings that survive is proved; FALSE for control and non-ASCII bytes (counterexample) |
| C69 Whitespace and comments do not change what is read | proved | `c69_blank`, `c69_list`, `c69_tokens`, `c69_quote_counterexample` | Before a datum and between the elements of a list, for every text; additionally: after a quotation mark a blank before a comma does matter (counterexample to a stronger claim) |
| C70 Module lookup order is own bindings, then imports in order | proved | `c70_module_ref`, `c70_variable`, `c70_current`, `c70_use`, `c70_module_use` | search order: own bindings, imports newest first, root; module-ref with default/error; variable references from code of a module and of none; effect of use-modules and module-use! on the order |
| C71 Only exported names are visible through an interface | partial | `c71_hidden_partial`, `c71_shown_partial`, `c71_import_partial`, `c71_snapshot`, `c71_counterexample_redefinition`, `c71_counterexample_early_export`, `c71_counterexample_no_export`, `c71_counterexample_interface_object`, `c71_counterexample_set` | full claim is false of the code: interfaces hold copies of values. Proved over all histories: an interface binds only exported names, an exported bound name is bound there forever, and an importer sees exactly what the interface binds. Histories where code defines variables inside an interface object itself are excluded. |
| C72 Defining in one module does not affect another | proved | `c72_define`, `c72_define_form` | as stated |
| C73 module-bound? tells whether a variable is bound | partial | `c73_bound_partial`, `c73_counterexample` | false when the value is #f; proved otherwise |
| C74 The mark phase marks exactly the reachable blocks | proved | `c74_exact`, `c74_terminates`, `c74_completes`, `c74_stale_crash`, `c74_start_crash` | every heap laid out as the collector assumes (c76/gc_history: every reachable heap); marks are exact whenever the phase ends, it always ends, and it ends without an invalid access under the stated condition; two concrete crashes when the condition fails |
| C75 Sweep frees exactly the unmarked blocks and preserves live contents | partial | `c75_sweep_partial`, `c75_odd_size` | false after the allocation of a large block whose size is not a multiple of 16 (c75_odd_size); proved for all other heaps |
| C76 The allocator returns disjoint zeroed blocks | proved | `c76_alloc`, `c76_exhausted`, `gc_history` | every history of allocation, write, collection; request sizes as made by the code (small, or a multiple of 16); a 65th segment is a null dereference (c76_exhausted) |
| C77 A collection never frees a reachable object | partial | `c77_history_partial`, `c77_frees`, `c77_odd_size`, `c77_captured`, `c77_smob` | proved for typed fields, arrays and environment entries over every history; false for pointers held only in the stack copy of a continuation, in smob data, and after odd-size large blocks (three counterexamples) |
| C78 String input ports deliver the string byte by byte | proved | `c78_operations`, `c78_read_all`, `c78_peek` | every string and every sequence of read-char / peek-char / char-ready? operations |
| C79 String output ports accumulate exactly what was written | partial | `c79_output_partial`, `c79_nul_counterexample`, `c79_overflow_counterexample` | texts without NUL (display stops at a NUL byte: counterexample) and total below 2^30 bytes (the capacity is an int and overflows: counterexample) |
| C80 read on a port delivers the whole next expression | partial | `c80_balanced_partial`, `c80_written_partial`, `c80_sequence_partial`, `c80_long_counterexample`, `c80_char_counterexample`, `c80_comment_counterexample`, `c80_adjacent_counterexample`, `c80_quote_counterexample` | proved for balanced texts below 4096 bytes, including every written datum of the readable fragment and sequences of them; FALSE for longer texts, character literals of parentheses, parentheses in comments, adjacent data, blanks after a quote mark (counterexamples) |
| C81 Variables are boxes | proved | `Misc.c81_box`, `Misc.c81_create`, `Misc.c81_not_variable` | every history of variable operations |
| C82 Smob types are distinct and data round-trips | proved | `Misc.c82_types`, `Misc.c82_limit`, `Misc.c82_make`, `Misc.c82_data`, `Misc.c82_scheme`, `Misc.c82_overflow_counterexample` | every history of type creations, constructions and field assignments; beyond the claim: a number near the least long used as a tag is undefined behaviour instead of an error (counterexample) |
| C83 Read options keep copy implies positions | proved | `Misc.c83_copy_positions`, `Misc.c83_error_unchanged`, `Misc.c83_enable`, `Misc.c83_disable_partial`, `Misc.c83_restore`, `Misc.c83_set_keywords`, `Misc.c83_set_counterexample`, `Misc.c83_disable_counterexample`, `Misc.c83_keyword_counterexample` | the invariant is proved for every history with any arguments; the effects of the calls as well, with the stated side condition on the keywords option; counterexamples to stronger readings |
| C84 Every embedding call leaves the interpreter usable | proved | `Ev.c84_usable`, `Ev.c84_no_escape`, `Ev.c84_catch_counterexample`, `Ev.c84_mixed_counterexample`, `Ev.c84_eval` | For every history of calls that return (an evaluation with undefined behaviour, C62, has no afterwards). Also proved: errors never escape the interface; stronger claims are false: after 98 errors that crossed a catch, (catch ...) fails; after 99 such pscm_eval calls pscm_eval_string fails on constants (counterexamples) |
| C85 Exact rationals support arithmetic | partial | `c85_mul_exact`, `c85_ratio_add_aborts`, `c85_div_exact`, `c85_reciprocal` | FALSE for + - and comparisons: a ratio operand trips an assert; * and / are exact and canonical |
| C86 Local variables are encapsulated | proved | `c86_encapsulation` | as stated |
| C87 The reader understands lists, vectors and abbreviations | partial | `c87_grammar`, `c87_whole`, `c87_counterexample` | every text of the grammar Written; FALSE for a comma form outside a list or abbreviation, a blank between a quotation mark and a comma, and a comma after ,@ (counterexamples: read errors) |
| C88 Collections happen when due | proved | `c88_threshold`, `c88_when`, `c88_bound` | every history with well-formed requests (sizes as in C76); live bytes below 2^53 so that the factor 1.5 in double is exact |
| C89 No dangling environments | proved | `c89_initial`, `c89_scope`, `c89_reachable`, `c89_procedure` | builtins are assumed not to invent references to environments |
| C90 Loading a file evaluates its expressions in order | partial | `c90_load`, `c90_unreadable`, `c90_counterexample` | FALSE for a file without expressions: it is an error, as if the file did not exist (counterexample) |
| C91 One name, one module | partial | `c91_persists`, `c91_unique`, `c91_resolve`, `c91_registers`, `c91_once`, `c91_reenter`, `c91_enter`, `c91_counterexample` | FALSE in one respect: a module whose file fails to load is registered nevertheless and never loaded again (counterexample) |
| C92 A bound variable stays bound | proved | `c92_variable`, `c92_module`, `c92_reference` | A reference from the same environment needs that the current module is the same |
| C93 Requesting a module loads its file into that module | partial | `c93_resolve`, `c93_use`, `c93_current`, `c93_set_current`, `c93_current_module`, `c93_module_p`, `c93_counterexample`, `c93_internal_counterexample` | %load-path a list of strings. FALSE: after an error in the file the half-loaded module stays the current one; definitions inside procedures of the file define variables of the module (counterexamples) |
| C94 Options of define-module mean the separate forms | partial | `c94_options_partial`, `c94_counterexample_order`, `c94_counterexample_list` | Imports before exports, requests that return. FALSE: options after #:export are taken as exports; the usual #:export (x y) is ignored (counterexamples) |
| C95 macroexpand shows what the evaluator evaluates | partial | `c95_expand1`, `c95_unchanged`, `c95_expand_partial`, `c95_agrees_partial`, `c95_counterexample` | Top-level macros; no expansion identical to its call; agreement with the evaluator as in C60. FALSE for macros defined inside a body (counterexample) |
| C96 defined? tells whether a variable can be referenced | partial | `c96_defined`, `c96_counterexample` | Exact for references at top level; FALSE for local variables (counterexample) |
| C97 call/cc captures the rest of the computation | partial | `c97_callcc_partial` | Continuations invoked while the call/cc is active; re-entering a frame that has returned: see C127-C130 |
| C98 Calling procedures from C | partial | `c98_call_partial`, `c98_unique`, `c98_apply`, `c98_not_procedure`, `c98_actual`, `c98_counterexample` | Builtins: complete; closures: values that evaluate to themselves. FALSE otherwise: a closure gets the values of the arguments taken as expressions (c98_actual, for all arguments; counterexample) |
| C99 Variables defined from C are Scheme variables | partial | `c99_define_partial`, `c99_lookup`, `c99_module_lookup`, `c99_same_as_define`, `c99_counterexample` | FALSE for names bound in the global environment, such as builtins: the definition has no effect on references (counterexample) |
| C100 Builtins registered from C check their arguments | partial | `c100_required`, `c100_optional_partial`, `c100_counterexample` | Up to three required arguments: complete. FALSE: four required arguments can never be called, and with optional or rest arguments nothing is checked (counterexamples) |
| C101 pscm_eval_file evaluates a file | partial | `c101_each`, `c101_last_partial`, `c101_missing`, `c101_counterexample`, `c101_parse_counterexample` | c101_each is exact for every readable file; FALSE: errors do not stop the evaluation and are lost, and a parse error is not caught (counterexamples) |
| C102 Type predicates classify the data | partial | `c102_classes`, `c102_disjoint`, `c102_numbers_partial`, `c102_not`, `c102_constructors`, `c102_counterexample` | Complete for the class predicates. FALSE for integer? and rational? of flonums: (integer? 2.0) is #f (counterexample) |
| C103 Files written are the files read | partial | `c103_file_input`, `c103_file_output_partial`, `c103_roundtrip_partial`, `c103_unflushed_counterexample`, `c103_nul_counterexample` | Printed texts without NUL (a displayed NUL is lost: counterexample), one output port per file; without close or flush the file may stay empty (counterexample) |
| C104 Closed ports are inert | proved | `c104_no_effect`, `c104_input`, `c104_output` | Ports of every kind for the absence of effects; answers for file and string ports |
| C105 Ports do not interfere | partial | `c105_interleaving`, `c105_string_input`, `c105_string_output_partial` | Soft ports and the initial standard output port excluded from the interleaving theorem; output: texts without NUL, below 2^30 bytes |
| C106 Current ports | partial | `c106_start`, `c106_current`, `c106_set`, `c106_counterexample`, `c106_closed_counterexample`, `c106_input_counterexample` | The registers are exact. FALSE: operations without a port ignore them: output goes to stdout, input is an error (counterexamples) |
| C107 Soft ports call their procedures | partial | `c107_make`, `c107_output_partial`, `c107_input_partial`, `c107_display_counterexample`, `c107_both_counterexample`, `c107_peek_counterexample` | Holds for write-char, force-output, read-char and closing of one-directional ports. FALSE for display, write, newline, peek-char, read and for writing to read/write ports (counterexamples) |
| C108 Port operations are always defined | partial | `c108_defined_partial`, `c106_closed_counterexample` | Soft-port procedures that return or raise, less than 2^30 bytes written, initial standard output not closed; FALSE after closing that port (counterexample) |
| C109 call-with-input-file, call-with-output-file and the string versions | partial | `c109_arguments`, `c109_input_file`, `c109_output_file_partial`, `c109_input_string`, `c109_output_string_partial`, `c109_error_counterexample` | Output as in C103 and C105. If the procedure raises an error the port stays open and text may be lost (counterexample) |
| C110 Debug options are set as requested | partial | `Dbg.c110_error_unchanged`, `Dbg.c110_restore`, `Dbg.c110_enable`, `Dbg.c110_disable_partial`, `Dbg.c110_set_int`, `Dbg.c110_set_file`, `Dbg.c110_names`, `Dbg.c110_set_counterexample`, `Dbg.c110_disable_counterexample` | FALSE: (debug-set! flag #f) has no effect; disabling an option with a number has no effect, disabling show-file-name with a symbol as value is an error (counterexamples) |
| C111 The REPL evaluates what is typed, once and in order | partial | `Repl.c111_complete`, `Repl.c111_session_partial`, `Repl.c111_multiline`, `Repl.c111_data_partial`, `Repl.c111_ends`, `Repl.c111_stuck_counterexample`, `Repl.c111_counterexample`, `Repl.c111_nul_counterexample` | Exact for sessions in which each complete text holds one expression, lines up to 4094 bytes. FALSE: an unmatched ) makes the REPL deaf for ever; a comment line, two expressions on a line or a string over two lines end the process (counterexamples) |
| C112 The command line does what the usage text says | partial | `Cli.c112_file`, `Cli.c112_help`, `Cli.c112_duplicate`, `Cli.c112_missing`, `Cli.c112_run`, `Cli.c112_unreadable`, `Cli.c112_exit_partial`, `Cli.c112_error_counterexample`, `Cli.c112_version_counterexample`, `Cli.c112_exit_counterexample` | Argument handling exact for all vectors. FALSE: a script whose expressions all fail prints nothing and succeeds; -v and --version are taken as files; statuses are cut to 8 bits (counterexamples) |
| C113 An uncaught throw is reported | partial | `Thr.c113_message_partial`, `Thr.c113_defined`, `Thr.c113_counterexample` | Exact up to 1023 bytes; FALSE beyond 1025 bytes: the message is written outside its buffer (c113_defined: exactly when; counterexample) |
| C114 Lazy catches see throws | partial | `Thr.c114_transparent_partial`, `Thr.c114_balanced`, `Thr.c114_counterexample`, `Thr.c114_leak_counterexample` | FALSE: the handler is never called (proved for all programs), and a throw that leaves a lazy catch leaks its slot. A lazy catch otherwise changes nothing |
| C115 + and * take any number of arguments | proved | `c115_fold`, `c115_fold_stop`, `c115_sum`, `c115_product` | Sum and product for exact integers whose partial results fit 64 bits (overflow: C01); the order of evaluation for all folding builtins |
| C116 Code made by a macro carries the source position of the macro call | partial | `Loc.c116_read`, `Loc.c116_expansion_partial`, `Loc.c116_shared_fails`, `Loc.c116_counterexample` | Expansions that do not hold an argument object at the place it has in the call. FALSE otherwise: the file name is used after it is freed (c116_shared_fails: always; counterexample) |
| C117 Error messages carry their position and text | partial | `Loc.c117_position`, `Loc.c117_position_lost`, `Loc.c117_position_short`, `Loc.c117_error`, `Loc.c117_type_error` | Exact texts for all inputs, no write outside a buffer; but a file name of 511 bytes or more loses line and column |
| C118 The call stack printed with an error lists the evaluations under way | partial | `Loc.c118_text`, `Loc.c118_report_partial`, `Loc.c118_shown`, `Loc.c118_stale`, `Loc.c118_deep`, `Loc.c118_unlocated` | Evaluations without errors, at most 100 deep, all located. FALSE otherwise: caught errors leave entries for good, deeper nesting and expressions without position remove entries of others |
| C119 Tail calls do not consume C stack | partial | `c119_if_partial`, `c119_call_nests`, `c119_linear`, `c119_runs` | Holds for if. FALSE for calls: the last body expression is evaluated in a nested invocation (c119_call_nests), so a tail-recursive loop over n elements needs depth n + 4 (c119_linear) |
| C120 Evaluating an expression does not change it | partial | `Code.c120_unchanged_partial`, `Code.c120_overwritten`, `Code.c120_counterexample` | For code without builtin objects in operator position (code read from text has none). FALSE otherwise: the argument expressions are overwritten by their values (c120_overwritten; counterexample) |
| C121 The functions of a smob type are used | partial | `Smb.c121_tags`, `Smb.c121_equal`, `Smb.c121_print`, `Smb.c121_apply_partial`, `Smb.c121_variable_fails` | FALSE when the smob is called through a variable: always an error (c121_variable_fails) |
| C122 The binder of a module supplies its undefined names | partial | `Msr.c122_bound`, `Msr.c122_binder`, `Msr.c122_nested`, `Msr.c122_terminates`, `Msr.c122_guard_partial`, `Msr.c122_error_fails` | Termination without autoloads. FALSE after an error in a binder: no binder is ever called again (c122_error_fails, for all later sessions) |
| C123 Autoloads load on first reference | partial | `Msr.c123_unlisted`, `Msr.c123_loads`, `Msr.c123_failed`, `Msr.c123_option_partial`, `Msr.c123_option_fails` | Lookups exact. FALSE for the option syntax unless #:autoload comes last: the names and keywords of later options are listed too (c123_option_fails) |
| C124 Positions of data and of parse errors are right | partial | `Rp.c124_lines_partial`, `Rp.c124_columns_partial`, `Rp.c124_datum`, `Rp.c124_own`, `Rp.c124_lines_counterexample`, `Rp.c124_columns_counterexample`, `Rp.c124_shared_counterexample` | Lines: texts without backslash-newline; columns: also without double quote, { and #:. FALSE otherwise (counterexamples); #t, #f and () share one position |
| C125 The report of a parse error shows the text around the error | partial | `Rp.c125_lines`, `Rp.c125_error_partial`, `Rp.c125_column`, `Rp.c125_head_partial`, `Rp.c125_caret_fails`, `Rp.c125_frame_caret_fails`, `Rp.c125_more_counterexample` | Lines and column exact. FALSE: the caret is always left of the byte by the digits of the line number (c125_caret_fails, for all inputs); the number of hidden frames is always 20 |
| C126 The parse stack shows the unfinished constructs | partial | `Rp.c126_balanced_partial`, `Rp.c126_unfinished_partial`, `Rp.c126_shown`, `Rp.c126_leak`, `Rp.c126_hidden_counterexample`, `Rp.c126_finished_counterexample`, `Rp.c126_popped_counterexample`, `Rp.c126_stale_counterexample` | Texts without vectors, (), quoted characters (and strings, for the balance). FALSE otherwise: () leaves its frame for ever (c126_leak), strings pop two, the innermost list is hidden, and frames outlive their text, so that a report reads outside its buffer |
| C127 Calling a continuation restores the C stack | partial | `Cm.c127_resume_partial`, `Cm.c127_safe`, `Cm.c127_words`, `Cm.c127_base`, `Cm.c127_negative_fails`, `Cm.c127_unset_fails`, `Cm.c127_host_counterexample` | Complete while the program stays below cont_base. FALSE otherwise: cont_base is fixed once, during the initialisation, and a host that evaluates from a shallower frame has undefined behaviour at call/cc |
| C128 Operands of a builtin can be re-entered | partial | `Re.c128_fresh_partial`, `Re.c128_two`, `Re.c128_backtracking`, `Re.c128_stale_fails`, `Re.c128_counterexample` | Holds for at most two operands, for backtracking, and for all fresh points. FALSE for all other points: the value passed is ignored (proved for all of them) |
| C129 Each return into a procedure call makes its own variables | partial | `Re.c129_bindings_partial`, `Re.c129_shared_fails`, `Re.c129_order_counterexample`, `Re.c129_assign_counterexample` | Parameters bound correctly in depth-first histories. FALSE: all activations share one environment, so earlier closures see their variables change (proved for every such history) |
| C130 map can be re-entered | partial | `Re.c130_once_partial`, `Re.c130_next`, `Re.c130_after_fails`, `Re.c130_skip_counterexample` | Holds when every application returns once. FALSE otherwise: elements are skipped, and after map has returned freed memory is read (proved for every history) |
| C131 Text passes between C and Scheme unchanged | partial | `Lst.c131_roundtrip`, `Lst.c131_terminated`, `Lst.c131_out`, `Lst.c131_truncated_fails`, `Lst.c131_long_fails` | Texts of less than 2^31 - 1 bytes. FALSE otherwise: from 2^32 bytes on they are silently cut, below that the process is aborted or undefined |
| C132 A table can change while it is folded | partial | `Itr.c132_fold`, `Itr.c132_static`, `Itr.c132_current_partial`, `Itr.c132_module_map`, `Itr.c132_stale_counterexample` | Everything but the last clause for all procedures; the last clause for procedures that remove at most the key they are called with. FALSE otherwise: removed entries are passed (counterexample) |
| C133 The host reads the last error | partial | `c133_last`, `c133_safe`, `c133_kept`, `c133_dangling`, `c133_leak`, `c133_eval_null`, `c133_uncaught`, `c133_stale_counterexample`, `c133_file_counterexample` | Keys, messages, memory: for all histories. FALSE: a text returned before is deleted by the next error, always (c133_dangling); a null answer without error leaves the old error in place; pscm_eval_file hides all errors but that of the last expression |
| C134 Modules can be made and used from C | partial | `c134_call_partial`, `c134_error_fails`, `c134_not_module`, `c134_define_module_partial`, `c134_define_module_fails`, `c134_use`, `c134_import`, `c134_name_error` | Functions that return. FALSE otherwise: an error or jump out of the function leaves its module current, also after the error has been reported to the host (c134_error_fails, c134_define_module_fails: always) |
| C135 The builtins are there and get what they expect | partial | `c135_bound`, `c135_macros`, `c135_entered_partial`, `c135_current_module_fails`, `c135_arity` | All builtins but current-module. FALSE for current-module: its C function has one parameter and is called with none |
| C136 Smobs made from Scheme keep their data | partial | `SmS.c136_data`, `SmS.c136_types`, `SmS.c136_errors`, `SmS.c136_tag_overflow` | All but the last clause for all histories. FALSE: a tag below -2^63 + 2^24 is undefined behaviour (signed overflow), in every state |
| C137 What the interpreter holds survives a collection | partial | `c137_kept`, `c137_registered`, `c137_host_fails`, `c137_options_fail`, `Gc.Demo.c137_host_counterexample` | Registered variables (up to 8192), global environment, registers, stack below the marker. FALSE: pscm_init does not set the marker, so in a host program the stack is never scanned and every collection frees what only the stack holds; the values of the options keywords and show-file-name are no roots |
| C138 Programs mean what Scheme says | partial | `c138_value_partial`, `c138_error_partial`, `c138_redefine_fails`, `c138_call_datum_fails`, `c138_factorial`, `c138_flip`, `c138_unique`, `c145_value_partial`, `c145_error_partial` | All programs that do not define a procedure with the name of a builtin by (define (f ...) ...), with one expression in the body of each named let, with do variables that are not bound outside and boolean tests (otherwise C52), with templates that are not nested, with map and for-each over lists of the same length, for-each with a Scheme procedure of that number of parameters and without empty lists as elements (the code evaluates only the first: c49_counterexample) and without internal (define (f ...) ...) (the code makes them global: C40). FALSE for the former: such a definition is never seen (c138_redefine_fails: always); and for calls of a datum without arguments, which give the datum (c138_call_datum_fails) |
| C139 The option macros reach the options | proved | `c139_use`, `c139_value`, `c139_error`, `c139_read`, `c139_debug`, `c139_read_error`, `c139_debug_error`, `c139_session` | Literal arguments: constants and quoted symbols that are not names of the six macros; the builtins the macros use not redefined. The option builtins are those of C83 and C110 |
| C140 A program text prints what Scheme says | partial | `c140_script_partial`, `c140_error_partial`, `c140_empty_fails`, `c140_session_partial`, `c140_session_error_partial`, `c140_session_empty`, `c140_text`, `c140_readback` | Programs as in C138. FALSE for the empty program: exit status 1 and a message that the file cannot be read (c140_empty_fails: always). What the forms after an erroneous one print is left open (c140_error_partial) where the semantics does not say which effects precede the error: too many arguments, an error in the list arguments of map and for-each; so is the text of procedures |
| C141 scm_c_eval_string gives the value of the text | partial | `c141_values_partial`, `c141_error_partial`, `c141_split`, `c141_empty_fails` | Programs as in C138. FALSE for texts without expressions: the answer is the null pointer, although the comment in the code says unspecified (c141_empty_fails: always) |
| C142 Printed output comes out in order | partial | `c142_script_partial`, `c142_display_list_fails` | Programs as in C138; strings without NUL. FALSE for display of lists: strings and characters in them are printed as write does (c142_display_list_fails: always for strings). Errors as in C140; the text of procedures is left open |
| C143 A dialogue shows what Scheme says | partial | `c143_session_partial` | Programs as in C138, one form per entry, entries as in C111 (lines that fit the buffers; a parse error ends the process: C111). The line that shows the expression is what print_ast prints for the datum read. Values that contain strings in lists and the text of procedures are as in C142 |
| C144 The report of an uncaught throw reaches the error port | partial | `c144_file_partial`, `c144_string_partial`, `c144_fallback`, `c144_closed_fails`, `c144_quit` | Lines of at most 1023 bytes (beyond 1025 undefined: C113), output without NUL and below 2^30 bytes; the standard error open if a call stack is printed. FALSE for the last clause: when the program has closed the port of the standard error, every uncaught throw writes to the closed C stream (c144_closed_fails: always) |
| C145 eval runs a datum as a program of the top level | proved | `c145_eval`, `c145_quoted`, `c145_anywhere`, `c145_program`, `c145_forms`, `c145_count`, `c145_not_local` | All data and states where eval and quote are the initial ones and the current module is the root module. The comment in the code, that the expression is evaluated in the current environment, is false (c145_not_local). With C138: c145_value_partial and c145_error_partial |
| C146 A procedure is called what it was first defined as | partial | `c146_name`, `c146_stable`, `c146_print`, `c146_builtin_fails` | Procedures: all histories. FALSE for builtins: procedure-name is an error for every builtin, although it has a name and prints it (c146_builtin_fails: always) |
| C147 A guarded evaluation gives the value or what the handler says | partial | `c147_value_partial`, `c147_error_partial`, `c147_default_partial` | Programs as in C138; catch with #t at top level, thunk and handler written as lambda expressions, while catch is the builtin. What the handler is called with is left open by the semantics, and so are errors whose preceding effects it leaves open (C140) |
| C148 The list builtins compute on data, however they share memory | partial | `c148_value_partial`, `c148_error_partial`, `c148_program_partial` | Data: 64-bit integers, booleans, characters, symbols without NUL, strings (both below 2^31 - 1 bytes), () and pairs in the representation that cons, list and the reader make. Literals such as (1 . (2 3)) have another one (C13, C15), and where the reference semantics leaves the result open nothing is said (append with an improper last argument, assq on lists with elements that are not pairs, eq? of strings and lists). The same reference semantics is that of the programs of C138, so this ties the tree values of the evaluator model to the models of memory |
| C149 The builtins on characters and strings compute on data | partial | `c149_value_partial`, `c149_error_partial`, `c149_program_partial` | Data as in C148. Where the reference semantics leaves the result open nothing is said: comparisons and string->symbol of strings with NUL (C33 says what happens), results of 2^31 - 1 bytes and more, number->string with a radix or of the least integer. The procedures that change a string (string-set!, string-fill!) and those that read numbers are not in the list. |
| C150 The numeric builtins compute on data; programs of builtins compute what Scheme says | partial | `c150_value_partial`, `c150_error_partial`, `c150_program_partial`, `c150_program_error_partial` | Data as in C148; numbers are 64-bit integers. Nothing is said where the reference semantics leaves the result open: results that overflow (C01 says what happens), parity, max and min beyond 2^53, non-numbers among the arguments of + and the comparisons (C01, C05). The result is a new object also where the C code returns an argument; numbers have no identity in the specification. |
| C151 An assignment to a pair changes the data that contain the pair and no others | partial | `c151_set_car_partial`, `c151_set_cdr_partial`, `c151_circular_partial` | Data in the representation of C148. C12 says what the calls do to the cells, also for other representations and for non-pairs. If the value contains the pair only the pair itself is said to be circular |
| C152 The update functions on association lists compute on data and leave the old list alone | partial | `c152_remove_partial`, `c152_set_partial`, `c152_assq_set_partial`, `c152_ref_partial`, `c152_list_head_partial` | FALSE in full: assoc-ref returns the first element of the rest of the entry if it is a pair, and #f if it is the empty list (C24); stated with that (refOf). Data as in C148; keys without dotted pairs and without strings that contain NUL; elements that are not pairs are allowed (not for assoc-ref) |
| C153 An assignment to a string changes the data that contain the string and no others | partial | `c153_string_set_partial` | Data in the representation of C148. C31 says what the call does to the bytes, also for other arguments |
<!-- END TABLE -->

## 3. Faults of the code found on the way

Each is witnessed by a counterexample theorem unless marked (reading only).

* **Numbers.** `even?`/`odd?`/`max`/`min` go through `double` and are wrong above 2^53.  `+`, `-` and the comparisons abort on a ratio operand.
  Fixed-width arithmetic overflows (undefined behaviour), also in `number->string` of -2^63.
* **Lists.** `last-pair` is wrong for odd lengths ≥ 3; `append` drops elements of a final improper list; `length`, `reverse`, `list-ref` count the
  tail of an improper list; `cons` onto a circular list does not terminate; `list?` answers `#f` beyond 10001 nodes; `cadr` of `(a . b)` returns `b`.
* **Equality, tables.** The comparison behind `member`, `assoc`, `case` and `hash-` tables ignores dots; `memv`/`hashv` do not find symbols;
  characters and floats as keys hash by address; `assoc-ref` returns the first element of a list value; `assoc-remove!` removes only one entry.
* **Strings.** Comparison stops at NUL; `string-ci<?` compares signed characters; loops with `int` counters overflow at 2^31.
* **Lookup and definitions.** In operator position a module binding (and a global macro) wins over enclosing frames; `set!` uses the
  current module while references use the module of the code; `(define (f) …)` in a body defines in the module; `set!` of an unbound name creates
  a local binding.
* **Procedures and forms.** Too few arguments to a procedure with a rest parameter leave parameters unbound; named `let` keeps only the first body
  expression and captures `__temp_i`; a test-only `cond` clause gives `#t`; `do` overwrites variables of enclosing frames and rejects non-boolean
  tests; `for-each` stops at `()`; `apply` evaluates leading arguments twice; re-entrant `force` evaluates twice; `call-with-values` spreads a list.
* **Quasiquotation and macros.** Splice followed by a dotted tail in a nested template; bare `(unquote)`; improper spliced values; a single macro
  parameter becomes a rest parameter; atoms as expansions are not evaluated; expansion inside quoted data; `(define-macro name proc)` ignores the
  environment of `proc` (the last two: reading only).
* **Control.** `catch` pops one entry only, so a throw that crosses a catch leaves a dangling entry: a later throw jumps into a dead frame, and after
  99 such throws `catch` fails; `throw` never runs `dynamic-wind` guards and does not restore the wind chain; continuation jumps run exit guards outermost first
  and re-run common winds; `(throw 'k)` calls the handler with an extra `()`; `call/cc` as a value takes its operand unevaluated (reading only).
* **Modules and files.** Interfaces hold copies of values; `module-bound?` is false when the value is `#f`; an interface points back to its module;
  a file without expressions fails to load; a module whose file fails stays registered (and current); internal definitions of a module file define
  variables of the module; `#:export (x y)` is ignored and options after `#:export` are taken as exports; `defined?` does not see local variables;
  `macroexpand` knows only top-level macros; after an error in a binder no binder is ever called again; the names after `#:autoload` include those
  of all later options.
* **Evaluation.** Procedure bodies are evaluated in a nested invocation of the evaluator, so tail recursion consumes C stack; a call whose operator is a
  builtin object (not a symbol) overwrites its argument expressions with their values.
* **Embedding interface.** `scm_call_n` evaluates the arguments of a closure again; `pscm_c_define` of a name bound in the global environment has no
  effect; builtins with four required arguments cannot be called, those with optional arguments are called with any number; `pscm_eval_file` loses
  errors of all but the last expression and lets parse errors escape.
* **Reader and printer.** Control and non-ASCII bytes in strings do not survive write/read; `:foo` is written `#:foo`; `(quote a b)` is written
  `(quote a)`; ratios are read as an integer and a symbol; numerals ≥ 2^63 are undefined behaviour; `' ,a` and a top-level `,a` are errors; symbols with
  delimiters are not escaped.
* **Ports.** `read` splits expressions longer than 4095 bytes, is confused by `#\(`, by parentheses in comments, by adjacent data and by blanks after
  a quotation mark; NUL ends displayed text; the buffer capacity overflows at 2^30 bytes.  Output operations without a port ignore
  `current-output-port`, input operations without a port are errors; after the initial error port was closed, every uncaught throw is undefined; after the initial output port was closed, writing without a port is undefined
  behaviour.  Soft ports: `display`, `write` and `newline` are dropped, a read/write port drops `write-char`, `peek-char` and `read` see the end of
  file; a soft port whose close procedure fails stays open (reading only).  `call-with-output-file` leaves the port open when the procedure
  fails; `display` to a port leaves `stdout` redirected if printing fails (reading only).
* **Predicates.** `(integer? 2.0)` and `(rational? 0.5)` are `#f`; `exact?` and `inexact?` of non-numbers are `#f` instead of errors.
* **hash-fold.** A procedure that removes its own key and the next one of the bucket is called with the removed entry (C132).
* **Last error.** The text `pscm_get_last_error_message` returned is deleted by the next error; a null answer without error leaves the old error; `pscm_eval_file` hides all errors but the last (C133).
* **scm_c_call_with_current_module, scm_c_define_module.** An error in the function leaves its module current (C134).
* **current-module.** The C function takes a parameter but is called with none (C135).
* **Redefinition of builtins.** `(define (car p) ...)` has no effect at all: the definition goes to the module, the builtin in the global environment is found first; `(define car ...)` and `set!` work (C138).
* **scm-make-smob.** A tag near the smallest integer overflows a signed subtraction (C136).
* **pscm_init.** In a host program the C stack is not scanned by the collector: a collection during an evaluation frees objects in use (C137).
* **Options.** The values of `keywords` and `show-file-name` are not roots and dangle after a collection (C137).
* **C strings.** The length of a text passed from C is cut to an `int`: texts of 2^31 - 1 bytes or more are cut, abort the process or are undefined behaviour (C131).
* **Continuations.** `cont_base` is the address of a local of the first evaluation, which happens inside `pscm_init`; call/cc from a shallower stack copies a negative number of words (C127).
  Re-entering a call through an older continuation of an operand: builtins with three or more operands ignore the value passed and may get too few arguments (C128); all activations of a
  re-entered closure call share one environment (C129); `map` skips elements, and after it has returned reads its freed array (C130).
* **Collector.** Large blocks whose size is no multiple of 16 desynchronise the sweep (macOS/arm64 continuations: 248 bytes): reachable objects are
  freed; the stack copy of a continuation and the data of smobs are not traced; a stale pointer to a freed vector or a root pointing at the heap
  start crashes the mark phase; the 65th segment is a null dereference; the root registry silently stops at 8192 entries (reading only).
* **Reader options.** `(read-set! positions #f)` and disabling `positions` under `copy` have no effect; disabling `keywords` when it has a value is an error.
* **Debug options.** `(debug-set! flag #f)` and disabling an integer option have no effect; disabling `show-file-name` with a symbol as value is an
  error; its value is not protected from the collector (reading only).
* **REPL and command line.** An unmatched `)` makes the REPL deaf for ever; a line with only a comment, two expressions on a line or a string
  literal over two lines end the process with a parse error; a line with a NUL swallows the next one.  `-v`/`--version` are taken as file names.  A script
  whose expressions fail prints nothing and exits with status 0, an empty one exits with status 1; `-s` prints results exactly like `--test`; `(exit 256)` is success.
* **Throw.** The message of an uncaught throw overflows its buffer beyond 1025 bytes.  Handlers of lazy catches are never called: the entry
  is not recognised because it is a flat list, and the handler table consulted is a different static array; a throw leaks a slot of the table.
* **Smobs.** A smob bound to a variable cannot be called (its type number is taken for a corrupted pointer).  A number near the least `long` as a tag overflows (undefined behaviour).
* **Source positions.** A macro expansion that holds an argument at the place it has in the call frees a file name and then reads it.  File
  names of 511 bytes or more lose line and column.  Entries of the printed evaluation stack stay after caught errors, and entries of others are
  removed when the stack is full or an expression has no position.
* **Parse errors.** A backslash before a newline loses a line; newlines in strings and in `#{ }#`, and `#:`, shift columns; the caret is off by the number of
  digits of the line number.  The parse stack keeps frames of `()`, of non-empty vectors and of quoted characters, loses two frames per string, and is not cleared by errors,
  so that a later report reads outside its text.
* **`display`.** Strings and characters inside a list are printed as `write` prints them (`print.cc`:176-179).
* **`scm_c_eval_string`.** A text without expressions is answered by the null pointer; the branch meant for it (`scm_none()`) is never reached.
* **`eval`, `procedure-name`.** `(eval x)` does not see the variables of its caller, although the comment says "in the current environment" (C145).  `procedure-name` is an
  error for builtins, which have a name (C146).

## 4. What is modelled and what is not

Modelled, function by function: the files in the table of section 1, with these exceptions.

* Floating-point `+ - * /`, `sqrt` and text conversion of doubles: uninterpreted parameters (`FArith`, `FText`, `FloIO`); the int64 → double
  rounding and all comparisons of doubles are concrete.
* The machine stack in the evaluator model.  There a continuation can be invoked while its frame is still on the C stack (escape); re-entering a returned frame is the outcome `unmod`.
  Re-entry has models of its own: `ContMem` (the stack as words; the frame sizes are parameters, the compiler is assumed not to inline the copying functions) and `ReEnter` (the loops that
  evaluate operands, bind parameters and run `map`, with the evaluation of the operands left open).
* The conservative scan of stack and registers: its result is an arbitrary list of words as roots.
* Evaluator values are trees; mutation of pairs, strings and vectors is the subject of the data-structure layer, where objects have
  identity.  The evaluator sees all such builtins as the arbitrary family `P`.
  For the list builtins the two layers are tied together by the reference semantics: C138 relates the trees to it, C148 the nodes and addresses; likewise for characters and strings (C149) and numbers (C150).
* In the evaluator, code is a tree; that evaluation can overwrite code (C120) is only visible in the fragment `CodeMem`.
* In the evaluator, module binders and `#:autoload` (they have their own model, `ModSearch`), `module-map`, `procedure-name`, a macro expansion identical to its own call in `macroexpand`: outcome `unmod`.
* The end of file ports by the collector, I/O errors of the C library, soft-port procedures that operate on ports themselves, evaluation that reads the standard input of the REPL, `abort.cc`, message texts except in C113, C117, C118 and C125, logging, and the legacy front ends outside `src/c`.
* Platform: 64-bit pointers, 8-bit signed `char`, 32-bit `int`, 64-bit `long`; `malloc`/`mmap` never fail; names contain no NUL in the evaluator.

## 5. Trusted base

* Lean 4.33.0's kernel.
* Axioms.  No axiom is declared.  Of the theorems named in `MANIFEST.json`, none depends on anything but `propext`, `Classical.choice` and
  `Quot.sound`; `AXIOMS.txt` lists the axioms of every one of them (output of `#print axioms`).  No `native_decide`, `bv_decide` or compiled
  evaluation is used; `decide +kernel` is evaluated by the kernel and only used on concrete witnesses and on finite domains checked
  completely (a byte, a boolean).
* The transcription of the C++ into the model, recorded in the citations, and the reading of the English claims as Lean statements.

## 6. Testing the theorems against wrong programs

`seeded/LOG.jsonl` records every attempt: a realistic bug is put into one model definition in a scratch copy, the project is rebuilt, and the
theorems that no longer hold are listed.  When nothing failed although a claim was broken, the missing theorem was added (`tightened`).

## 7. Regenerating the lists

`python3 tools/props.py` (properties.jsonl), `python3 tools/manifest.py` (MANIFEST.json, checks names), `python3 tools/design.py` (the table in
section 2).
