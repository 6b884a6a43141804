{"id": "C01", "title": "Integer addition, subtraction and multiplication are exact or undefined, never silently wrong", "statement": "(+ n ...), (- n ...) and (* n ...) on exact integers return exactly the mathematical sum / left-to-right difference / product whenever every running partial result fits in 64 bits; otherwise the C++ program has signed overflow (undefined behaviour), and these are the only integer argument lists for which it does.", "quantifier": "every list of exact integers of every length", "why_tests_cant": "argument lists are unbounded and the overflow frontier depends on every partial result; a test visits a handful of lists", "anchors": ["src/c/number.cc: scm_c_add_number, scm_c_mul_number, scm_c_minus_wrapper, BinaryOperator", "src/c/function.cc: eval_with_func"]}
{"id": "C02", "title": "quotient, remainder and modulo satisfy the division law", "statement": "For integers n and d with d non-zero, n = d*(quotient n d) + (remainder n d), the remainder has the sign of n and magnitude below |d|, the modulo has the sign of d and magnitude below |d| and is congruent to n; d = 0 raises a Scheme error; the only undefined pair is (-2^63, -1).", "quantifier": "every pair of 64-bit integers", "why_tests_cant": "2^128 pairs; sign and boundary combinations are where the bugs are", "anchors": ["src/c/number.cc: scm_c_quotient, scm_c_modulo, scm_c_remainder"]}
{"id": "C03", "title": "gcd and lcm are the mathematical gcd and lcm", "statement": "(gcd n ...) is the non-negative greatest common divisor of all arguments, 0 for none; (lcm n ...) is the non-negative least common multiple, 1 for none and 0 if any is 0, whenever intermediate values fit in 64 bits.", "quantifier": "every argument list of exact integers", "why_tests_cant": "needs all lists and all integers; Euclid loop termination is for all inputs", "anchors": ["src/c/number.cc: scm_c_gcd, scm_c_lcm, gcd/lcm loops"]}
{"id": "C04", "title": "Exact division yields a canonical rational", "statement": "(/ n d ...) on exact integers returns an integer when the quotient is integral and otherwise a ratio with positive denominator greater than 1 in lowest terms whose value is the exact quotient; division by zero raises a Scheme error.", "quantifier": "every list of integers whose running products fit in 64 bits", "why_tests_cant": "canonical form must hold for all numerators and denominators, including signs", "anchors": ["src/c/number.cc: scm_c_div, scm_make_ratio"]}
{"id": "C05", "title": "Numeric comparison chains decide the mathematical order", "statement": "(= n ...), (< n ...), (> n ...), (<= n ...), (>= n ...) on exact integers return #t exactly when every adjacent pair is in the relation, for any number of arguments including zero and one.", "quantifier": "every list of exact integers", "why_tests_cant": "unbounded argument count", "anchors": ["src/c/number.cc: scm_c_eq_chain, scm_c_lt_chain, scm_c_gt_chain, scm_c_le_chain, scm_c_ge_chain"]}
{"id": "C06", "title": "even?/odd? decide parity and are complementary", "statement": "On every exact integer exactly one of even? and odd? is #t and it is the mathematical parity.", "quantifier": "every 64-bit integer", "why_tests_cant": "the failing inputs start at 2^53+1, far outside what a test samples", "anchors": ["src/c/number.cc: scm_c_is_odd, scm_c_is_even"]}
{"id": "C07", "title": "max and min return the largest and smallest argument exactly", "statement": "(max n ...) / (min n ...) on exact integers return an argument that bounds all the arguments.", "quantifier": "every non-empty list of exact integers", "why_tests_cant": "failures need magnitudes above 2^53 in specific combinations", "anchors": ["src/c/number.cc: scm_c_max, scm_c_min"]}
{"id": "C08", "title": "expt is integer power", "statement": "(expt b e) for exact integer b and e >= 0 is b^e whenever the running products fit in 64 bits.", "quantifier": "every base and exponent", "why_tests_cant": "unbounded exponent, loop", "anchors": ["src/c/number.cc: scm_c_expt"]}
{"id": "C09", "title": "abs, zero?, positive?, negative? agree with integer arithmetic", "statement": "abs is absolute value (undefined only at -2^63); exactly one of zero?, positive?, negative? holds for each integer.", "quantifier": "every 64-bit integer", "why_tests_cant": "2^64 inputs", "anchors": ["src/c/number.cc: scm_c_abs, scm_c_is_zero, scm_c_is_positive, scm_c_is_negative"]}
{"id": "C10", "title": "number->string and string->number are inverse in every radix", "statement": "(string->number (number->string n r) r) = n for every radix accepted, and the printed digits are the positional representation of n in base r.", "quantifier": "every 64-bit integer above the minimum and every radix 2..36", "why_tests_cant": "2^64 * 35 inputs", "anchors": ["src/c/string.cc: scm_c_number_to_string, int_to_string_radix, scm_c_string_to_number"]}
{"id": "C11", "title": "cons/car/cdr laws", "statement": "(car (cons a d)) is a, (cdr (cons a d)) is d for every value d that is acyclic data, and cons changes no existing pair.", "quantifier": "every heap and every pair of values", "why_tests_cant": "heap shapes (shared, dotted, nested) are unbounded", "anchors": ["src/c/list.cc: scm_cons", "src/c/eval.cc: car/cdr builtins"]}
{"id": "C12", "title": "set-car! and set-cdr! update one pair and nothing else", "statement": "After (set-car! p v), (car p) is v and (cdr p) is unchanged; after (set-cdr! p v), (cdr p) is v and (car p) unchanged; no other pair changes.", "quantifier": "every heap, including shared and circular structure", "why_tests_cant": "aliasing is unbounded", "anchors": ["src/c/list.cc: scm_c_set_car, scm_c_set_cdr"]}
{"id": "C13", "title": "length counts the elements of every proper list", "statement": "(length l) is the number of elements for every proper list and is an error for non-lists.", "quantifier": "every list of every length", "why_tests_cant": "unbounded length", "anchors": ["src/c/list.cc: scm_c_length"]}
{"id": "C14", "title": "reverse reverses and allocates fresh structure", "statement": "(reverse l) has the elements of l in reverse order, shares no pair with l, leaves l unchanged; reversing twice gives the elements of l.", "quantifier": "every list", "why_tests_cant": "unbounded length, aliasing", "anchors": ["src/c/list.cc: scm_c_reverse"]}
{"id": "C15", "title": "append concatenates", "statement": "(append l1 ... ln) for proper lists is the concatenation of the element sequences and leaves the arguments unchanged; a final improper argument becomes the tail.", "quantifier": "every list of arguments", "why_tests_cant": "unbounded arity and lengths; the dotted final argument with several cars is a corner few test", "anchors": ["src/c/list.cc: scm_append, _is_dotted_pair"]}
{"id": "C16", "title": "list-ref, list-head and list-tail agree", "statement": "For every proper list and 0 <= k < length, (list-ref l k) is the k-th element; for 0 <= k <= length, (append (list-head l k) (list-tail l k)) has the elements of l; out-of-range k raises an error and never reads past the end.", "quantifier": "every list and every 64-bit k", "why_tests_cant": "boundary k = length, negative k, size_t conversion", "anchors": ["src/c/list.cc: scm_c_list_ref, scm_c_list_head, scm_c_list_tail"]}
{"id": "C17", "title": "last-pair returns the last pair", "statement": "(last-pair l) returns the last pair of every non-empty proper list and terminates on circular lists with an error.", "quantifier": "every list length", "why_tests_cant": "wrong exactly for odd lengths >= 3: a test with one even-length list passes", "anchors": ["src/c/list.cc: scm_c_last_pair"]}
{"id": "C18", "title": "memq, memv and member return the first matching tail", "statement": "(memX x l) returns the longest tail of l whose car matches x under the corresponding equality, and #f when no element matches.", "quantifier": "every object and every list", "why_tests_cant": "unbounded length and position", "anchors": ["src/c/list.cc: scm_c_memq, scm_c_memv, scm_c_member, _eqv"]}
{"id": "C19", "title": "list? recognises exactly the finite proper lists", "statement": "(list? x) is #t for the empty list and for nil-terminated chains, #f for improper lists and circular chains, and always terminates.", "quantifier": "every object, every cycle shape", "why_tests_cant": "cycle lengths and entry points are unbounded", "anchors": ["src/c/predicate.cc: scm_c_is_list"]}
{"id": "C20", "title": "equal? is structural equality of the denoted data", "statement": "On acyclic data made of pairs, vectors, integers, strings (without NUL), symbols, booleans, characters and the empty list, (equal? a b) is #t exactly when a and b denote the same tree, however the pairs are represented internally; hence it is an equivalence relation.", "quantifier": "every pair of data", "why_tests_cant": "trees are unbounded; internal representation of (1 . (2 3)) differs from (1 2 3)", "anchors": ["src/c/eq.cc: _equal_recursive, _list_equal, scm_c_is_equal"]}
{"id": "C21", "title": "eq? implies eqv? implies equal?", "statement": "For all objects, if (eq? a b) then (eqv? a b), and if (eqv? a b) then (equal? a b); eq? and eqv? are reflexive.", "quantifier": "every pair of objects", "why_tests_cant": "all type combinations and identities", "anchors": ["src/c/eq.cc: scm_c_is_eq, scm_c_is_eqv, scm_c_is_equal"]}
{"id": "C22", "title": "The equality used by member/assoc/case/hash tables agrees with equal?", "statement": "Library procedures that promise equal? comparison (member, assoc, hash-ref) distinguish exactly the data equal? distinguishes.", "quantifier": "every pair of data", "why_tests_cant": "the two comparison functions differ only on dotted chains such as (1 . 2) and (1 2)", "anchors": ["src/c/eq.cc: _eq, _list_eq, _vector_eq"]}
{"id": "C23", "title": "assq/assv/assoc find the first entry", "statement": "(assX key alist) returns the first entry whose car matches the key and #f when there is none.", "quantifier": "every alist and key", "why_tests_cant": "unbounded length", "anchors": ["src/c/alist.cc: scm_c_assq, scm_c_assoc, scm_c_assv, is_eq_pointer"]}
{"id": "C24", "title": "assoc-set! then assoc-ref returns the stored value", "statement": "After (assoc-set! al k v), looking up k gives v and looking up any other key gives what it gave before.", "quantifier": "every alist, key and value", "why_tests_cant": "list-valued and empty-list values are corner cases tests with atoms never reach", "anchors": ["src/c/alist.cc: scm_c_assoc_ref, scm_c_assoc_set, scm_c_assq_set"]}
{"id": "C25", "title": "assoc-remove! removes the key", "statement": "After (assoc-remove! al k) the result has no entry for k and every other lookup is unchanged.", "quantifier": "every alist including those with duplicate keys", "why_tests_cant": "duplicates are unbounded", "anchors": ["src/c/alist.cc: scm_c_assoc_remove"]}
{"id": "C26", "title": "A hash table behaves as a finite map", "statement": "Under any sequence of hash-set!, hash-remove!, hash-ref, hash-create-handle! and hash-get-handle with one key family, hash-ref returns the most recently stored value for a matching key not removed since, and #f otherwise.", "quantifier": "every sequence of operations, capacity and key set on which hashing is compatible with comparison", "why_tests_cant": "operation histories and bucket collisions are unbounded", "anchors": ["src/c/hash_table.cc: scm_c_hash_set, scm_c_hash_ref, scm_c_hash_remove, find_entry_in_bucket, insert_entry_to_bucket"]}
{"id": "C27", "title": "Every key that compares equal hashes equally", "statement": "Keys considered the same by a hash-table family select the same bucket, so that a stored key can always be found again.", "quantifier": "every pair of keys", "why_tests_cant": "fails only for specific types (floats, characters, ratios, lists containing them)", "anchors": ["src/c/hash_table.cc: hash functions, scm_cmp_eq, scm_cmp_eqv, scm_cmp_equal"]}
{"id": "C28", "title": "Hash table size equals the number of live keys and fold visits each once", "statement": "After any history the entry count equals the number of distinct keys stored and not removed, and hash-fold calls its procedure exactly once per live entry.", "quantifier": "every history", "why_tests_cant": "unbounded histories", "anchors": ["src/c/hash_table.cc: scm_c_hash_fold, insert_entry_to_bucket, remove_entry_from_bucket"]}
{"id": "C29", "title": "Vector accesses are bounds-checked and read the last write", "statement": "(vector-ref v k) returns the last value stored at k by make-vector/vector/vector-set!; indices outside 0..length-1 raise a Scheme error and never touch memory; other slots are unaffected.", "quantifier": "every vector, index and history", "why_tests_cant": "unbounded lengths, histories and out-of-range indices", "anchors": ["src/c/vector.cc: scm_c_vector_ref, scm_c_vector_set, scm_c_make_vector_impl"]}
{"id": "C30", "title": "vector->list and list->vector are inverse", "statement": "(list->vector (vector->list v)) has the elements of v and (vector->list (list->vector l)) the elements of l.", "quantifier": "every vector and proper list", "why_tests_cant": "unbounded length", "anchors": ["src/c/vector.cc: scm_c_vector_to_list, scm_c_list_to_vector"]}
{"id": "C31", "title": "String accessors are bounds-checked and exact", "statement": "string-ref, string-set!, substring respect 0 <= start <= end <= length, raise a Scheme error otherwise, and return exactly the selected bytes.", "quantifier": "every string and indices", "why_tests_cant": "unbounded", "anchors": ["src/c/string.cc: scm_c_string_ref, scm_c_string_set, scm_c_substring"]}
{"id": "C32", "title": "string-append, string->list, list->string, string-length are a monoid homomorphism", "statement": "string-append concatenates bytes, length is additive, string->list and list->string are inverse.", "quantifier": "every list of strings", "why_tests_cant": "unbounded", "anchors": ["src/c/string.cc: scm_c_string_append, scm_c_string_to_list, scm_c_list_to_string, scm_c_string_length"]}
{"id": "C33", "title": "String comparison is a total order consistent with equality", "statement": "Exactly one of string<?, string=?, string>? holds; string<=? is the union; transitivity holds; on NUL-free strings it is bytewise lexicographic order.", "quantifier": "every pair/triple of strings", "why_tests_cant": "strings with embedded NUL and high bytes are where strncmp and the length tie-break matter", "anchors": ["src/c/string.cc: scm_c_string_lt, scm_c_string_eq, scm_c_string_gt, scm_c_string_le, scm_c_string_ge"]}
{"id": "C34", "title": "Case-insensitive string comparison is comparison of the folded strings", "statement": "string-ci=? etc. agree with the corresponding case-sensitive comparison applied to case-folded strings.", "quantifier": "every pair of strings", "why_tests_cant": "differs only for bytes >= 128, where char is signed", "anchors": ["src/c/string.cc: scm_c_string_ci_lt, scm_c_string_ci_eq, scm_c_string_lt"]}
{"id": "C35", "title": "char->integer and integer->char are inverse and order preserving", "statement": "integer->char inverts char->integer on 0..255 and rejects everything else; char comparisons agree with integer comparisons.", "quantifier": "every integer and character", "why_tests_cant": "range check over 2^64 integers", "anchors": ["src/c/char.cc: scm_c_integer_to_char, scm_c_char_to_integer, scm_c_char_lt"]}
{"id": "C36", "title": "symbol->string and string->symbol are inverse; symbols with equal names are eq?", "statement": "(symbol->string (string->symbol s)) has the bytes of s, and two symbols are eq? exactly when their names are equal (for NUL-free names).", "quantifier": "every string", "why_tests_cant": "unbounded", "anchors": ["src/c/symbol.cc: scm_c_string_to_symbol, scm_c_symbol_to_string", "src/c/eq.cc: _sym_eq"]}
{"id": "C37", "title": "gensym never repeats", "statement": "The symbols returned by any sequence of gensym calls are pairwise not eq?.", "quantifier": "every number of calls below the counter range", "why_tests_cant": "unbounded sequence", "anchors": ["src/c/symbol.cc: scm_c_gensym"]}
{"id": "C38", "title": "Variable lookup is lexical", "statement": "A reference finds the binding of the innermost enclosing frame that binds the name, then the module, then the global environment; inner bindings shadow outer ones.", "quantifier": "every chain of frames", "why_tests_cant": "unbounded nesting", "anchors": ["src/c/environment.cc: scm_env_search, scm_env_exist"]}
{"id": "C39", "title": "set! changes only the binding it names", "statement": "After (set! x v), x reads v wherever the same binding is visible and every other variable and every shadowed x is unchanged.", "quantifier": "every environment chain", "why_tests_cant": "unbounded chains and shadowing", "anchors": ["src/c/eval.cc: eval_set", "src/c/environment.cc: scm_env_insert"]}
{"id": "C40", "title": "A definition inside a procedure body is local to that body", "statement": "Evaluating an internal define never changes a binding visible outside the body.", "quantifier": "every program", "why_tests_cant": "requires reasoning over all environments", "anchors": ["src/c/define.cc: eval_define"]}
{"id": "C41", "title": "Evaluation is deterministic and independent of how long it is run", "statement": "If a program evaluates to an outcome, every longer run gives the same outcome: results never depend on the step budget.", "quantifier": "every program, environment and step budget", "why_tests_cant": "all programs", "anchors": ["src/c/eval.cc: eval_with_env"]}
{"id": "C42", "title": "if evaluates exactly one branch", "statement": "(if c a b) evaluates c, then only a when c is not #f and only b when it is #f; without else the result is unspecified; errors in c propagate.", "quantifier": "every condition, branches and state", "why_tests_cant": "all programs", "anchors": ["src/c/eval.cc: eval_if"]}
{"id": "C43", "title": "and/or short-circuit", "statement": "and returns the first #f or the last value, or returns the first non-#f value or the last; operands after the deciding one are not evaluated.", "quantifier": "every operand list", "why_tests_cant": "unbounded operands", "anchors": ["src/c/eval.cc: eval_and, eval_or"]}
{"id": "C44", "title": "begin and bodies run in order and return the last value", "statement": "A body is evaluated left to right, the effects are those of sequential composition and the result is the last value.", "quantifier": "every body", "why_tests_cant": "unbounded", "anchors": ["src/c/eval.cc: eval_with_list"]}
{"id": "C45", "title": "Procedure application binds parameters to arguments by position", "statement": "Calling a procedure with n fixed parameters on n arguments evaluates the arguments left to right in the caller environment and the body in the captured environment extended with parameter i bound to argument i; a different count raises an error; a rest parameter receives the remaining arguments as a list.", "quantifier": "every parameter list and argument list", "why_tests_cant": "unbounded arity", "anchors": ["src/c/procedure.cc: apply_procedure, apply_procedure_with_values"]}
{"id": "C46", "title": "Calling a procedure with too few arguments is an error", "statement": "No parameter is ever left unbound: a call with fewer arguments than required parameters raises an error.", "quantifier": "every procedure and argument list", "why_tests_cant": "only rest-parameter procedures violate it", "anchors": ["src/c/procedure.cc: apply_procedure"]}
{"id": "C47", "title": "Builtins check arity", "statement": "A builtin of fixed arity 0..3 called with another number of arguments raises a wrong-number-of-args error and is never entered.", "quantifier": "every builtin and argument list", "why_tests_cant": "unbounded", "anchors": ["src/c/function.cc: eval_with_func"]}
{"id": "C48", "title": "let is lambda application", "statement": "(let ((v e) ...) body ...) evaluates like ((lambda (v ...) body ...) e ...); let* like nested lets; letrec binds before evaluating.", "quantifier": "every binding list and body", "why_tests_cant": "unbounded binding lists", "anchors": ["src/c/let.cc: expand_let, expand_letstar, expand_letrec"]}
{"id": "C49", "title": "Named let keeps its whole body", "statement": "A named let evaluates every body expression at each iteration.", "quantifier": "every named let", "why_tests_cant": "body length is unbounded", "anchors": ["src/c/let.cc: expand_let"]}
{"id": "C50", "title": "cond selects the first true clause", "statement": "cond evaluates tests in order until one is true and evaluates only that clause; else matches; => passes the test value; a test-only clause returns the test value.", "quantifier": "every clause list", "why_tests_cant": "unbounded", "anchors": ["src/c/cond.cc: eval_cond"]}
{"id": "C51", "title": "case selects the clause containing the key", "statement": "case evaluates the key once and runs the first clause with a matching datum, else the else clause, otherwise returns.", "quantifier": "every clause list", "why_tests_cant": "unbounded", "anchors": ["src/c/case.cc: eval_case, value_in_datums"]}
{"id": "C52", "title": "do iterates simultaneously and does not disturb outer variables", "statement": "do initialises fresh variables, evaluates all steps with the old values before updating, stops when the test is true and leaves outer variables of the same name unchanged.", "quantifier": "every do loop and iteration count", "why_tests_cant": "unbounded iteration", "anchors": ["src/c/do.cc: eval_do, update_do_variables"]}
{"id": "C53", "title": "map applies position-wise and stops at the shortest list", "statement": "(map f l1 ... ln) returns the list of results of f on the i-th elements for i below the shortest length, calling f in order.", "quantifier": "every n and lists", "why_tests_cant": "unbounded", "anchors": ["src/c/map.cc: eval_map"]}
{"id": "C54", "title": "for-each visits every element", "statement": "(for-each f l) calls f once for each element of l in order.", "quantifier": "every list", "why_tests_cant": "stops early only at an empty-list element", "anchors": ["src/c/for_each.cc: eval_for_each, is_list_exhausted"]}
{"id": "C55", "title": "apply passes exactly the given arguments", "statement": "(apply f a ... l) calls f with the values a ... followed by the elements of l, none of them evaluated again.", "quantifier": "every argument list", "why_tests_cant": "fails only when leading values are symbols or lists", "anchors": ["src/c/apply.cc: eval_apply"]}
{"id": "C56", "title": "force evaluates a promise at most once", "statement": "Any number of (force p) return the same value and evaluate the delayed expression at most once.", "quantifier": "every number of forces", "why_tests_cant": "unbounded histories", "anchors": ["src/c/delay.cc: scm_c_force, eval_delay"]}
{"id": "C57", "title": "values/call-with-values deliver the produced values", "statement": "(call-with-values (lambda () (values v ...)) f) calls f on v ...; one value that happens to be a list is delivered as one argument.", "quantifier": "every value list", "why_tests_cant": "list-valued singletons are the corner", "anchors": ["src/c/values.cc: scm_c_values, eval_call_with_values"]}
{"id": "C58", "title": "quasiquote without unquote is quote", "statement": "A quasiquoted template with no unquote at level one evaluates to an equal datum.", "quantifier": "every template", "why_tests_cant": "unbounded templates", "anchors": ["src/c/quasiquote.cc: quasi"]}
{"id": "C59", "title": "unquote and unquote-splicing substitute values", "statement": "Each level-one unquote is replaced by its value, each splice inserts the elements of its list value, nested quasiquotes raise the level; everything else is copied.", "quantifier": "every template and environment", "why_tests_cant": "unbounded nesting", "anchors": ["src/c/quasiquote.cc: quasi, append_two_lists"]}
{"id": "C60", "title": "Macro parameters receive the argument forms unevaluated", "statement": "A macro defined by (define-macro (m p ...) body) binds p_i to the i-th operand form; a wrong operand count is an error.", "quantifier": "every parameter and operand list", "why_tests_cant": "the one-parameter case is special", "anchors": ["src/c/macro.cc: expand_macro_call, eval_define_macro"]}
{"id": "C61", "title": "catch runs the handler of the innermost matching catch", "statement": "A throw transfers to the most recently entered, still active catch whose tag is #t or matches the key, and passes key and arguments; with none it is reported as uncaught.", "quantifier": "every nesting of catches and throws", "why_tests_cant": "unbounded nesting", "anchors": ["src/c/throw.cc: scm_c_catch, scm_throw, tags_match"]}
{"id": "C62", "title": "catch leaves the catch stack as it found it", "statement": "After a catch returns, normally or by a throw, exactly the catches active before it are active; no history of errors exhausts the stack.", "quantifier": "every history of evaluations", "why_tests_cant": "leaks one slot per crossing error: visible only after ~100", "anchors": ["src/c/throw.cc: scm_c_catch", "src/c/pscm_api.cc: pscm_eval"]}
{"id": "C63", "title": "dynamic-wind runs its guards around the body", "statement": "A normal dynamic-wind runs in, body, out once each in that order for every nesting.", "quantifier": "every nesting", "why_tests_cant": "unbounded", "anchors": ["src/c/dynwind.cc: eval_dynamic_wind"]}
{"id": "C64", "title": "Continuation jumps run exactly the guards that are crossed", "statement": "Invoking a continuation runs the out guards of the winds left, innermost first, and the in guards of the winds entered, outermost first, and no guards of winds common to both.", "quantifier": "every pair of wind chains", "why_tests_cant": "unbounded chains", "anchors": ["src/c/dynwind.cc: find_common_prefix, unwind_wind_chain, rewind_wind_chain", "src/c/continuation.cc: scm_dynthrow"]}
{"id": "C65", "title": "A throw out of dynamic-wind runs the out guards", "statement": "When an error leaves a dynamic-wind body the out guard runs before the handler returns.", "quantifier": "every program", "why_tests_cant": "needs all control paths", "anchors": ["src/c/throw.cc: scm_throw", "src/c/dynwind.cc: eval_dynamic_wind"]}
{"id": "C66", "title": "The reader terminates and consumes input monotonically", "statement": "For every input text the reader returns a datum, end of input, or an error; it never loops, never reads beyond the terminating NUL and never moves backwards across a datum boundary.", "quantifier": "every byte string", "why_tests_cant": "unbounded inputs", "anchors": ["src/c/parse.cc: parse_expr, parse_list, skip_whitespace"]}
{"id": "C67", "title": "write followed by read gives back an equal datum", "statement": "Parsing the written representation of any readable datum yields an equal? datum.", "quantifier": "every datum in the readable fragment", "why_tests_cant": "unbounded data", "anchors": ["src/c/parse.cc: parse", "src/c/print.cc: print_ast, _print_list"]}
{"id": "C68", "title": "Strings survive write/read", "statement": "Reading the written form of any string gives the same bytes.", "quantifier": "every byte string", "why_tests_cant": "control and high bytes break it", "anchors": ["src/c/print.cc: _print_ast_with_context", "src/c/parse.cc: parse_string"]}
{"id": "C69", "title": "Whitespace and comments do not change what is read", "statement": "Inserting whitespace or a line comment before a datum does not change the datum read.", "quantifier": "every text", "why_tests_cant": "unbounded", "anchors": ["src/c/parse.cc: skip_whitespace"]}
{"id": "C70", "title": "Module lookup order is own bindings, then imports in order", "statement": "A variable resolves to the module own binding if any, else to the first used interface that has it, else to the root module.", "quantifier": "every module graph", "why_tests_cant": "unbounded graphs", "anchors": ["src/c/module.cc: module_search_variable, module_obarray_lookup"]}
{"id": "C71", "title": "Only exported names are visible through an interface", "statement": "A module using another sees exactly the exported bindings.", "quantifier": "every export set", "why_tests_cant": "needs all graphs and histories", "anchors": ["src/c/module.cc: scm_module_export, eval_use_modules, scm_ensure_public_interface"]}
{"id": "C72", "title": "Defining in one module does not affect another", "statement": "module-define! in a module changes lookups only in that module and in modules that resolve the name through it.", "quantifier": "every pair of modules", "why_tests_cant": "unbounded", "anchors": ["src/c/module.cc: scm_module_define, module_obarray_lookup"]}
{"id": "C73", "title": "module-bound? tells whether a variable is bound", "statement": "(module-bound? m s) is #t exactly when s resolves in m.", "quantifier": "every module and symbol", "why_tests_cant": "wrong exactly for variables whose value is #f", "anchors": ["src/c/module.cc: scm_c_module_bound_p"]}
{"id": "C74", "title": "The mark phase marks exactly the reachable blocks", "statement": "From unmarked heap, after marking, a block is marked iff it is reachable from a root through traced pointers.", "quantifier": "every heap graph, including cycles", "why_tests_cant": "unbounded graphs", "anchors": ["src/c/gc.cc: mark_phase, push_if_unmarked, trace_scm"]}
{"id": "C75", "title": "Sweep frees exactly the unmarked blocks and preserves live contents", "statement": "After sweep, live blocks keep their contents with mark cleared, dead blocks are on the free list of their class exactly once.", "quantifier": "every heap", "why_tests_cant": "unbounded heaps", "anchors": ["src/c/gc.cc: sweep_phase, free_to_list"]}
{"id": "C76", "title": "The allocator returns disjoint zeroed blocks", "statement": "Every allocation returns a payload disjoint from every live block, large enough for the request, 16-aligned and zeroed.", "quantifier": "every sequence of allocations and collections", "why_tests_cant": "unbounded histories", "anchors": ["src/c/gc.cc: gc_alloc, bump_allocate, size_to_bucket"]}
{"id": "C77", "title": "A collection never frees a reachable object", "statement": "Across any sequence of allocation, mutation and collection, a block reachable from the roots stays allocated and unchanged.", "quantifier": "every history", "why_tests_cant": "unbounded histories; fails after a large block of odd size", "anchors": ["src/c/gc.cc: run_gc, sweep_phase, gc_alloc"]}
{"id": "C78", "title": "String input ports deliver the string byte by byte", "statement": "read-char on a string port returns successive bytes then eof forever; peek-char returns the next byte without consuming it.", "quantifier": "every string and sequence of operations", "why_tests_cant": "unbounded", "anchors": ["src/c/port.cc: read_char_from_port, peek_char_from_port"]}
{"id": "C79", "title": "String output ports accumulate exactly what was written", "statement": "get-output-string returns the concatenation of all characters written, for any number of writes, across buffer growth.", "quantifier": "every sequence of writes", "why_tests_cant": "buffer growth boundaries", "anchors": ["src/c/port.cc: write_char_to_port_string, scm_c_get_output_string"]}
{"id": "C80", "title": "read on a port delivers the whole next expression", "statement": "(read port) consumes exactly the text of the next datum and returns it.", "quantifier": "every text", "why_tests_cant": "fails beyond 4095 bytes and around character literals", "anchors": ["src/c/port.cc: read_expr_from_port"]}
{"id": "C81", "title": "Variables are boxes", "statement": "variable-ref returns the last variable-set! value; an undefined variable is unbound until set and reading it is an error.", "quantifier": "every history", "why_tests_cant": "unbounded", "anchors": ["src/c/variable.cc: scm_make_variable, scm_variable_ref, scm_variable_set_x, scm_variable_bound_p"]}
{"id": "C82", "title": "Smob types are distinct and data round-trips", "statement": "Each created smob type has a distinct tag, at most 256 exist, and smob data read back is what was stored.", "quantifier": "every sequence of type creations", "why_tests_cant": "unbounded", "anchors": ["src/c/smob.cc: scm_make_smob_type, scm_make_smob, scm_smob_data"]}
{"id": "C83", "title": "Read options keep copy implies positions", "statement": "After any sequence of read-enable/read-disable/read-options calls, if copy is enabled then positions is enabled.", "quantifier": "every history", "why_tests_cant": "unbounded", "anchors": ["src/c/read.cc: change_read_option_setting, scm_c_read_enable, scm_c_read_disable"]}
{"id": "C84", "title": "Every embedding call leaves the interpreter usable", "statement": "After any sequence of pscm_eval_string calls, successful or failing, evaluating a constant still succeeds.", "quantifier": "every history of evaluations", "why_tests_cant": "needs ~100 specific failures", "anchors": ["src/c/pscm_api.cc: pscm_eval, pscm_eval_string", "src/c/throw.cc: scm_c_catch"]}
{"id": "C85", "title": "Exact rationals support arithmetic", "statement": "Arithmetic and comparison on exact rationals return the exact canonical result; in particular (+ 1/2 1/2) = 1.", "quantifier": "every pair of exact rationals", "why_tests_cant": "all pairs of ratios; addition is the case that fails", "anchors": ["src/c/number.cc: scm_c_mul_number, scm_c_add_number, BinaryOperator, scm_make_ratio"]}
{"id": "C86", "title": "Local variables are encapsulated", "statement": "If no value outside an environment frame refers to it, then code evaluated elsewhere behaves the same whatever that frame's variables hold, does not change them, and cannot obtain a reference to the frame.", "quantifier": "every expression, every state and every family of builtins", "why_tests_cant": "requires all programs and all values of the hidden variables", "anchors": ["src/c/environment.cc: scm_env_search, scm_env_insert; src/c/eval.cc: eval_with_env; src/c/procedure.cc: apply_procedure"]}
{"id": "C87", "title": "The reader understands lists, vectors and abbreviations", "statement": "A text built from atoms with parentheses, a dotted tail, #( ), the marks ' ` , and ,@, white space and comments reads as exactly the datum it denotes: 'x as (quote x), `x as (quasiquote x), ,x as (unquote x), ,@x as (unquote-splicing x), (a . b) as the pair, nested to any depth.", "quantifier": "every text of the grammar, every nesting depth, every choice of blanks", "why_tests_cant": "unbounded family of texts", "anchors": ["src/c/parse.cc: parse_quote, parse_quasiquote, parse_unquote_in_list, parse_list, parse_vector, parse_expr"]}
{"id": "C88", "title": "Collections happen when due", "statement": "An allocation collects garbage exactly when the bytes allocated since the last collection have reached the threshold; after a collection that removes all unreachable objects the count restarts and the threshold is 1.5 times the live bytes, at least 2 MiB; so between collections at most the threshold plus one request is allocated.", "quantifier": "every history of allocations, writes and collections", "why_tests_cant": "requires all histories and heap sizes", "anchors": ["src/c/gc.cc: gc_alloc, run_gc, sweep_phase"]}
{"id": "C89", "title": "No dangling environments", "statement": "In every state that a program can reach, every environment captured by a procedure, macro, promise, wind guard or parent link exists; so a procedure value can always be entered, and the environment a call creates is new: nothing refers to it before.", "quantifier": "every program, every sequence of evaluations with any outcome, every family of builtins that does not invent references", "why_tests_cant": "requires all programs and all histories", "anchors": ["src/c/environment.cc: make_env; src/c/procedure.cc: apply_procedure; src/c/eval.cc: eval_with_env"]}
{"id": "C90", "title": "Loading a file evaluates its expressions in order", "statement": "load and primitive-load of a readable file evaluate its expressions in order at top level and return what the last one returns; an error in one of them ends the load with that error, later expressions are not evaluated; a file that does not exist or cannot be parsed is an error and none of its expressions is evaluated.", "quantifier": "every file content, every state and every family of builtins", "why_tests_cant": "unbounded file contents and states", "anchors": ["src/c/load.cc: scm_c_primitive_load, scm_eval_expression_list, scm_primitive_load"]}
{"id": "C91", "title": "One name, one module", "statement": "A module name denotes one module for ever: two requests for the same name (define-module, use-modules, resolve-module) give the same module; the file of a module is loaded at most once; entering a module again keeps what it contains.", "quantifier": "every program and every history of evaluations in between", "why_tests_cant": "requires all histories", "anchors": ["src/c/module.cc: scm_resolve_module, scm_make_module, module registry"]}
{"id": "C92", "title": "A bound variable stays bound", "statement": "No evaluation unbinds a variable: a variable of a module, or one visible from an environment, that has a value has one for ever after; imports and exports are only added, in front of the existing ones.", "quantifier": "every program, whatever its outcome, every history", "why_tests_cant": "requires all programs and histories", "anchors": ["src/c/module.cc: scm_module_define, scm_c_module_use, scm_module_export; src/c/environment.cc: scm_env_insert"]}
{"id": "C93", "title": "Requesting a module loads its file into that module", "statement": "use-modules and resolve-module of a name that denotes no module make a module of that name, look for the file in the directories of %load-path in order, evaluate the file with the new module as current module, and make the module that was current before current again; use-modules puts each module in front of the imports of the current module; set-current-module makes a module current and returns the previous one.", "quantifier": "every %load-path, every file content, every state", "why_tests_cant": "unbounded paths, file contents and nesting of requests", "anchors": ["src/c/module.cc: scm_resolve_module, scm_c_use_module, scm_set_current_module"]}
{"id": "C94", "title": "Options of define-module mean the separate forms", "statement": "(define-module name #:use-module u ... #:export x ...) does what (define-module name), (use-modules u ...) and (export x ...) do one after the other.", "quantifier": "every list of options, every state", "why_tests_cant": "unbounded option lists and module contents", "anchors": ["src/c/module.cc: eval_define_module"]}
{"id": "C95", "title": "macroexpand shows what the evaluator evaluates", "statement": "macroexpand-1 of a macro call is what the macro makes of the operand forms; of anything else, the expression itself with nothing evaluated; macroexpand repeats this until the expression is not a macro call; evaluating a macro call is evaluating the result.", "quantifier": "every macro, every expression, every state", "why_tests_cant": "unbounded expressions, chains of expansions", "anchors": ["src/c/macro.cc: scm_c_macroexpand_1, scm_c_macroexpand, expand_macros"]}
{"id": "C96", "title": "defined? tells whether a variable can be referenced", "statement": "(defined? (quote x)) is true exactly if a reference to x at this place has a value.", "quantifier": "every name, environment and state", "why_tests_cant": "all programs that bind names", "anchors": ["src/c/eval.cc: scm_c_defined"]}
{"id": "C97", "title": "call/cc captures the rest of the computation", "statement": "(call/cc f) calls f once with the continuation; if f returns v the form returns v; if the continuation is called with v, then or later, the form returns v, with the current module as it was at the call/cc.", "quantifier": "every procedure f and every use of the continuation", "why_tests_cant": "quantifies over all uses of the continuation", "anchors": ["src/c/continuation.cc: scm_make_continuation, scm_dynthrow; src/c/eval.cc: eval_call_cc"]}
{"id": "C98", "title": "Calling procedures from C", "statement": "scm_call_0 ... scm_call_3 and scm_apply_0 call the procedure on exactly the given values and return its result; anything that is not a procedure is an error.", "quantifier": "every procedure, every list of argument values, every state", "why_tests_cant": "argument values range over all data", "anchors": ["src/c/apply.cc: scm_call_0, scm_call_1, scm_call_2, scm_call_3, scm_apply_0"]}
{"id": "C99", "title": "Variables defined from C are Scheme variables", "statement": "After pscm_c_define (x, v) the variable x has the value v for Scheme code and for pscm_c_lookup, and no other variable changes; pscm_c_lookup and pscm_c_module_lookup give the value a Scheme reference would have, or an error.", "quantifier": "every name, value and state", "why_tests_cant": "all names, including those of builtins", "anchors": ["src/c/module.cc: scm_c_define, scm_c_module_define, scm_c_module_lookup; src/c/variable.cc: scm_c_lookup"]}
{"id": "C100", "title": "Builtins registered from C check their arguments", "statement": "After pscm_c_define_gsubr (x, req, opt, rst, fcn), a call (x e ...) evaluates the operands in order and calls fcn on the values if their number is allowed by req, opt and rst, and raises an error otherwise.", "quantifier": "every req, opt, rst, every call", "why_tests_cant": "all arities and argument counts", "anchors": ["src/c/module.cc: scm_c_define_gsubr; src/c/function.cc: eval_with_func"]}
{"id": "C101", "title": "pscm_eval_file evaluates a file", "statement": "pscm_eval_file evaluates the expressions of the file in order and returns the value of the last; if one fails the call returns NULL with the error recorded and the rest is not evaluated; a file that cannot be read or parsed gives NULL.", "quantifier": "every file content and state", "why_tests_cant": "unbounded file contents", "anchors": ["src/c/pscm_api.cc: pscm_eval_file, pscm_parse_file"]}
{"id": "C102", "title": "Type predicates classify the data", "statement": "Every object satisfies at most one of boolean?, symbol?, char?, string?, vector?, procedure?, pair?, null?, number?; the predicates never fail; what constructors return satisfies the predicate of its class; not is true exactly of #f; integers are rational are real are complex are numbers, and each number is exact or inexact.", "quantifier": "every object; every constructor call", "why_tests_cant": "all objects of all types", "anchors": ["src/c/predicate.cc: scm_c_is_boolean, scm_c_is_pair, scm_c_is_number, scm_c_is_integer; src/c/char.cc: scm_c_is_char"]}
{"id": "C103", "title": "Files written are the files read", "statement": "A port opened on a file delivers the contents the file had. A file opened for output is empty at first, at any moment holds a prefix of the text sent to the port, and all of it once the port was closed or flushed; a program that then opens the file for input reads exactly the text it wrote.", "quantifier": "every program of port operations, every file content, every behaviour of the C library buffers", "why_tests_cant": "the buffering of the C library and all interleavings of operations on several ports", "anchors": ["src/c/port.cc: scm_c_open_input_file, scm_c_open_output_file, scm_c_close_output_port, scm_force_output; src/c/string.cc: write_string_to_port"]}
{"id": "C104", "title": "Closed ports are inert", "statement": "After a port was closed every operation on it has no effect on any file, buffer or other port: reading gives the end of file, writing does nothing, closing again is harmless, get-output-string still gives the text.", "quantifier": "every program after the closing", "why_tests_cant": "all continuations of the program", "anchors": ["src/c/port.cc: scm_c_close_input_port, scm_c_close_output_port, read_char_from_port, write_char_to_port_string"]}
{"id": "C105", "title": "Ports do not interfere", "statement": "The operations on one port get the answers they would get if the operations on all other ports were left out; a string input port delivers its string and a string output port collects exactly what was sent to it, whatever happens on other ports in between.", "quantifier": "every program of port operations, every port", "why_tests_cant": "all interleavings", "anchors": ["src/c/port.cc: read_char_from_port, peek_char_from_port, write_char_to_port_string, scm_c_get_output_string"]}
{"id": "C106", "title": "Current ports", "statement": "current-input-port, current-output-port and current-error-port return the port set last, which has the right direction; setting one returns the one before; a port of the wrong direction is refused and changes nothing. Operations without a port argument use the current ports.", "quantifier": "every program of port operations", "why_tests_cant": "all histories", "anchors": ["src/c/port.cc: scm_current_output_port, scm_set_current_output_port, scm_set_current_input_port, scm_c_write_char"]}
{"id": "C107", "title": "Soft ports call their procedures", "statement": "Every operation on a port made by make-soft-port calls the procedure of the vector that belongs to it exactly once, in order: write-char the first with the character, force-output the third, read-char the fourth, whose value it returns, closing the fifth, and no other calls happen.", "quantifier": "every program of port operations, every behaviour of the procedures", "why_tests_cant": "all programs and all procedures", "anchors": ["src/c/port.cc: scm_c_make_soft_port, call_soft_port_thunk, read_char_from_port, flush_port"]}
{"id": "C108", "title": "Port operations are always defined", "statement": "Whatever a program does with its ports, every operation returns or raises a Scheme error.", "quantifier": "every program of port operations, every argument", "why_tests_cant": "all histories of operations", "anchors": ["src/c/port.cc: scm_c_read_char, scm_c_write_char, scm_c_close_input_port, scm_c_close_output_port; src/c/string.cc: write_string_to_port"]}
{"id": "C109", "title": "call-with-input-file, call-with-output-file and the string versions", "statement": "The procedure is called with a port on the file or string, closed when the procedure returns; its value is returned, except that call-with-output-string returns exactly the text sent to the port; call-with-output-file leaves exactly that text in the file; wrong arguments are refused before any file is touched.", "quantifier": "every procedure, i.e. every sequence of port operations it performs and every way it ends", "why_tests_cant": "all procedures", "anchors": ["src/c/port.cc: scm_c_call_with_input_file, scm_c_call_with_output_file, scm_c_call_with_input_string, scm_c_call_with_output_string"]}
{"id": "C110", "title": "Debug options are set as requested", "statement": "debug-enable and debug-disable switch exactly the named flags; debug-set! gives one option a value and changes nothing else; the list returned by debug-options-interface restores the options later; a call with an error changes nothing.", "quantifier": "every state of the options and every argument list", "why_tests_cant": "all histories of option changes", "anchors": ["src/c/debug.cc: scm_c_debug_options_interface, change_debug_option_setting, get_debug_option_setting"]}
{"id": "C111", "title": "The REPL evaluates what is typed, once and in order", "statement": "Every expression typed to the REPL is evaluated exactly once, in the order typed, when its last line has been entered, and its value is printed; an incomplete expression is continued on the next line; at the end of the input the REPL ends.", "quantifier": "every input text, every behaviour of the evaluator", "why_tests_cant": "all interactive sessions", "anchors": ["src/c/repl.cc: is_balanced, repl"]}
{"id": "C112", "title": "The command line does what the usage text says", "statement": "The options may be given in any order; exactly one file is evaluated, its expressions in order with the values printed; wrong command lines evaluate nothing and end with status 1; the exit status tells whether the program succeeded, and (exit n) ends it with status n.", "quantifier": "every argument vector, every file content, every behaviour of the evaluator", "why_tests_cant": "all argument vectors and files", "anchors": ["src/main.cc: main, do_eval, my_eval; src/c/exit.cc: scm_c_exit"]}
{"id": "C113", "title": "An uncaught throw is reported", "statement": "A throw that no catch handles prints the key and its message to the error port and ends the process with status 1.", "quantifier": "every key and message", "why_tests_cant": "messages of all lengths", "anchors": ["src/c/throw.cc: handler_message, scm_uncaught_throw"]}
{"id": "C114", "title": "Lazy catches see throws", "statement": "scm_internal_lazy_catch calls its handler for every throw with a matching key from its body, before the stack is unwound, and otherwise changes nothing.", "quantifier": "every program of catches, lazy catches, winds and throws", "why_tests_cant": "all nestings and histories", "anchors": ["src/c/throw.cc: scm_c_with_throw_handler, scm_internal_lazy_catch, scm_throw"]}
{"id": "C115", "title": "+ and * take any number of arguments", "statement": "(+ e ...) and (* e ...) evaluate their arguments from left to right and return the sum or product of their values, for any number of arguments; no arguments give 0 and 1; an argument that fails ends the call.", "quantifier": "every list of argument expressions, every state", "why_tests_cant": "argument lists of all lengths", "anchors": ["src/c/function.cc: reduce; src/c/number.cc: init_number"]}
{"id": "C116", "title": "Code made by a macro carries the source position of the macro call", "statement": "After the reader has recorded the position of an object, that position is the one reported for it until it is changed; the expansion of a macro call is given the position of the call, and nothing else changes its position; no recorded file name is used after it is freed.", "quantifier": "every heap of located objects, every expansion", "why_tests_cant": "all shapes of expansions", "anchors": ["src/c/source_location.cc: copy_source_location, copy_source_location_recursive, set_source_location; src/c/macro.cc: expand_macro_call"]}
{"id": "C117", "title": "Error messages carry their position and text", "statement": "An error message is printed with the position of the offending expression, as FILE:LINE:COLUMN, followed by its text; long names and messages are cut, never written outside the buffer.", "quantifier": "every file name, position, message and type", "why_tests_cant": "texts of all lengths", "anchors": ["src/c/source_location.cc: get_source_location_str; src/c/error.cc: eval_error, type_error"]}
{"id": "C118", "title": "The call stack printed with an error lists the evaluations under way", "statement": "When an error is reported the printed stack lists exactly the expressions whose evaluation has begun and not ended, innermost first, long expressions cut.", "quantifier": "every tree of evaluations, calls, errors and handlers", "why_tests_cant": "all evaluation histories", "anchors": ["src/c/error.cc: push_eval_stack, pop_eval_stack, print_eval_stack"]}
{"id": "C119", "title": "Tail calls do not consume C stack", "statement": "The last expression of a procedure body and the chosen branch of an if are evaluated without a further nested invocation of the evaluator, so a loop written as tail recursion runs in constant stack.", "quantifier": "every program, loops of every length", "why_tests_cant": "stack use on loops of all lengths", "anchors": ["src/c/eval.cc: eval_with_env, eval_with_list; src/c/procedure.cc: apply_procedure"]}
{"id": "C120", "title": "Evaluating an expression does not change it", "statement": "After an expression has been evaluated, once or often, it is the same datum as before, so that it can be evaluated again with the same meaning.", "quantifier": "every expression of the fragment, every memory", "why_tests_cant": "all expressions and all numbers of evaluations", "anchors": ["src/c/eval.cc: eval_with_env, eval_list_with_env"]}
{"id": "C121", "title": "The functions of a smob type are used", "statement": "The functions registered for a smob type, and no others, print, compare and apply its objects: equal? on two objects of the type answers what the equality function answers, printing calls the print function once, a call (smob e ...) evaluates the arguments from left to right and calls the function for that number of arguments; without registered functions the defaults apply. Registering functions for one type does not affect other types.", "quantifier": "every history of registrations, every object, every argument list", "why_tests_cant": "all histories of registrations", "anchors": ["src/c/smob.cc: scm_make_smob_type, scm_set_smob_equalp, scm_set_smob_print, scm_set_smob_apply, default_smob_print; src/c/eq.cc: _equal_recursive; src/c/eval.cc: eval_with_env"]}
{"id": "C122", "title": "The binder of a module supplies its undefined names", "statement": "When a name is not bound in a module, its imports or the root module, the binder of the module is called, once, with the module and the name, and supplies the value; bound names never reach it; a binder that looks names up itself does not make the lookup loop; an error in a binder is an ordinary error.", "quantifier": "every set of modules, binder and history", "why_tests_cant": "all binders and histories", "anchors": ["src/c/module.cc: module_search_variable, scm_c_set_module_binder"]}
{"id": "C123", "title": "Autoloads load on first reference", "statement": "A module listed with #:autoload is loaded at the first reference to one of its listed names that is not otherwise bound, at most once, and then imported; no other reference loads it.", "quantifier": "every set of modules and autoloads, every option list", "why_tests_cant": "all option lists and histories", "anchors": ["src/c/module.cc: module_search_variable, eval_define_module"]}
{"id": "C124", "title": "Positions of data and of parse errors are right", "statement": "The line and column recorded for a datum read from a text, and the line and column of a parse error, are those of the byte of the text where the datum starts or where the reader stopped: lines are counted by newlines, columns by bytes since the last newline; every datum with a recorded position is the one that stands there, and each expression gets one.", "quantifier": "every text, read as one datum or as a program", "why_tests_cant": "all texts", "anchors": ["src/c/parse.cc: skip_whitespace, parse_number, parse_char, parse_string, parse_symbol, parse_list, parse_vector, parse_expr, parse_file"]}
{"id": "C125", "title": "The report of a parse error shows the text around the error", "statement": "The numbered lines that a parse error prints are the line of the error, the line before and the line after, each with its own number and text; the caret stands below the byte where the reader stopped; the column of the current position is that byte; the number of frames not shown is the number of frames left.", "quantifier": "every text and position", "why_tests_cant": "all texts and positions", "anchors": ["src/c/parse.cc: parse_error, print_parse_stack"]}
{"id": "C126", "title": "The parse stack shows the unfinished constructs", "statement": "The parse stack printed with a parse error lists the lists, vectors, strings and quotations that enclose the error and are unfinished, innermost first, with the place where each starts; after a text has been read the stack is as before.", "quantifier": "every text and every history of texts read before", "why_tests_cant": "all histories of reads and errors", "anchors": ["src/c/parse.cc: push_parse_stack, pop_parse_stack, print_parse_stack, parse_list, parse_vector, parse_string, parse_quote, parse"]}
{"id": "C127", "title": "Calling a continuation restores the C stack", "statement": "Calling a continuation, at any time and any number of times, resumes the program where it was captured with the value passed: every live word of the C stack, the stack pointer and the current module are as at the capture, the heap as it is now; the copying never destroys its own frames.", "quantifier": "every history of stores, calls, returns, captures and calls of continuations; every stack depth; every frame size", "why_tests_cant": "depends on the distance between two stack depths and on everything that ran in between", "anchors": ["src/c/continuation.cc: scm_make_continuation, scm_dynthrow, grow_stack, copy_stack_and_call, scm_stack_size; src/c/eval.cc: scm_c_eval_string; src/c/pscm_api.cc: pscm_eval"]}
{"id": "C128", "title": "Operands of a builtin can be re-entered", "statement": "When continuations captured in the operands of a call of a builtin are called, the builtin is called with the values delivered on the way to that point, in order, whatever was delivered to other points of the same call before.", "quantifier": "every number of operands, every history of returns into the operands", "why_tests_cant": "the histories form unbounded trees", "anchors": ["src/c/eval.cc: eval_list_with_env"]}
{"id": "C129", "title": "Each return into a procedure call makes its own variables", "statement": "When continuations captured in the operands of a call of a closure are called, the body starts with the parameters bound to the values delivered on the way, and the variables of earlier activations are not changed.", "quantifier": "every number of parameters, every history of returns into the operands", "why_tests_cant": "the histories form unbounded trees", "anchors": ["src/c/procedure.cc: apply_procedure; src/c/environment.cc: scm_env_insert"]}
{"id": "C130", "title": "map can be re-entered", "statement": "map returns the results of the applications in order; when a continuation captured in an application is called again, map goes on with the elements after that one.", "quantifier": "every list of lists, every history of returns of the applications", "why_tests_cant": "the histories form unbounded trees", "anchors": ["src/c/map.cc: eval_map"]}
{"id": "C131", "title": "Text passes between C and Scheme unchanged", "statement": "A text a host passes to the interpreter, with a length or NUL-terminated, becomes a string or symbol with exactly these bytes, and asking for the text of a string gives back exactly its bytes: with a length, NUL bytes included; without, with one terminating NUL, and an error if the string itself contains a NUL. Anything else than a string is refused.", "quantifier": "every text and length", "why_tests_cant": "all texts and lengths, including those no test can allocate", "anchors": ["src/c/string.cc: scm_from_c_string, scm_from_locale_stringn, scm_to_locale_stringn; src/c/symbol.cc: create_sym, scm_from_locale_symbol, scm_from_locale_symboln, scm_symbol_to_string"]}
{"id": "C132", "title": "A table can change while it is folded", "statement": "hash-fold and module-map whose procedure inserts, changes or removes entries of the very table end, call the procedure at most once for a key and exactly once, with the value at that time, for every key that is bound at the start and not removed, and pass only entries that are in the table at that time; the result of each call is passed to the next (hash-fold) or collected in order (module-map).", "quantifier": "every table, every procedure, every sequence of changes it makes", "why_tests_cant": "all interleavings of the loop with the changes", "anchors": ["src/c/hash_table.cc: scm_c_hash_fold, insert_entry_to_bucket, remove_entry_from_bucket, update_entry_value, find_entry_in_bucket; src/c/module.cc: scm_c_module_map"]}
{"id": "C133", "title": "The host reads the last error", "statement": "After any history of calls of the embedding interface, pscm_get_last_error_key and pscm_get_last_error_message give the name of the symbol thrown and the first text among the first two arguments of the most recent error, and null before the first error; a text once returned stays readable; nothing is freed twice and nothing leaks; whether a call failed can be told from its answer and the last error.", "quantifier": "every history of pscm_eval, pscm_parse, pscm_eval_string and pscm_eval_file, with any programs and results", "why_tests_cant": "all histories of calls and errors", "anchors": ["src/c/error.cc: scm_api_catch_handler; src/c/pscm_api.cc: pscm_get_last_error_key, pscm_get_last_error_message, pscm_eval, pscm_parse, pscm_eval_string, pscm_eval_file"]}
{"id": "C134", "title": "Modules can be made and used from C", "statement": "scm_c_call_with_current_module runs the function with the module current and puts the previous module back however the function ends; scm_c_define_module gives the module of that name, made if necessary, runs init inside it and puts the previous module back; what init defines is visible, with its last value, wherever scm_c_use_module imports the module, and imports change only the current module; a name that is not a list is refused.", "quantifier": "every interpreter state, every function and init the host passes, every name and every list of definitions", "why_tests_cant": "the functions the host passes are arbitrary programs", "anchors": ["src/c/module.cc: scm_c_call_with_current_module, scm_c_define_module, scm_c_use_module, scm_resolve_module, scm_c_define"]}
{"id": "C135", "title": "The builtins are there and get what they expect", "statement": "After initialisation every builtin is bound, under its name and no other builtin's, in the global environment, and nothing else is; whatever the number of arguments of a call, the C function behind a builtin is only ever entered with the parameters it is defined with; a call with the wrong number of arguments is an error in which the builtin is not entered and nothing is changed.", "quantifier": "every one of the 208 builtins, every number of arguments and all constant arguments", "why_tests_cant": "the table is finite but the calls are not, and a mismatch between a registered arity and the C signature shows in no test until the calling convention makes it visible", "anchors": ["src/c/init.cc: init_scm; src/c/pscm.h: scm_define_function, scm_define_vararg_function, scm_define_generic_function; src/c/function.cc: eval_with_func; src/c/environment.cc: scm_env_insert; src/c/module.cc: scm_c_current_module"]}
{"id": "C136", "title": "Smobs made from Scheme keep their data", "statement": "scm-make-smob-type answers, for a string and an integer, a tag that no other type has, up to 256 types; scm-make-smob answers, for such a tag and an integer, a smob that no other call has answered, and scm-smob-data gives its integer back whatever is called afterwards if the type has size 0, and is an error if it has another size; calls with anything else are errors that change nothing; none is undefined.", "quantifier": "every history of calls with any arguments", "why_tests_cant": "all histories and arguments", "anchors": ["src/c/smob.cc: scm_c_make_smob_type, scm_c_make_smob, scm_c_smob_data, scm_c_smob_p, scm_make_smob_with_data; src/c/smob.h: get_smob_num"]}
{"id": "C137", "title": "What the interpreter holds survives a collection", "statement": "An object held by a registered C variable, by a global Scheme variable, by a register or by the C stack, and everything reachable from it, is intact after every collection; this covers all places where the interpreter or a host program keeps objects: every variable that was registered, the values of options, and the local variables of a host program that called pscm_init.", "quantifier": "every heap state, every contents of variables, registers and stack", "why_tests_cant": "all heaps and stacks at all moments a collection can start", "anchors": ["src/c/gc.cc: gc_register_root, gc_set_stack_top, scan_conservative_roots, mark_if_valid_block; src/c/gc.h: MAX_ROOTS; src/c/init.cc: init_scm; src/c/pscm_api.cc: pscm_init; src/main.cc: do_eval, main; src/c/read.cc: scm_read_opts; src/c/debug.cc: scm_debug_opts"]}
{"id": "C138", "title": "Programs mean what Scheme says", "statement": "A program of the core language (constants, quote, variables, lambda with rest parameters, calls, if, set!, begin, let, named let, let*, letrec, and, or, cond, case, do, map, for-each, apply, quasiquote, top-level definitions, definitions of variables at the beginning of bodies) that uses the builtins for integers, lists, equality, searching lists and association lists, types, characters, symbols, strings and their order, and the decimal text of integers, and to which the standard store semantics of Scheme gives a value, is evaluated by the interpreter from its initial state to that value and has no other outcome; one that is an error there (unbound variable, wrong number of arguments, wrong type of argument, division by zero, call of a datum that is not a procedure) ends in an error.", "quantifier": "every program of the core language, every number of steps, every choice of the other builtins", "why_tests_cant": "all programs: agreement on finitely many programs says nothing about the next one", "anchors": ["src/c/eval.cc: eval_with_env, eval_if, eval_and, eval_or; src/c/cond.cc: eval_cond; src/c/case.cc: eval_case; src/c/let.cc: expand_let, expand_letstar, expand_letrec; src/c/do.cc: eval_do; src/c/map.cc: eval_map; src/c/for_each.cc: eval_for_each; src/c/apply.cc: eval_apply; src/c/quasiquote.cc: eval_quasiquote; src/c/eval.cc: eval_lambda; src/c/procedure.cc: apply_procedure; src/c/function.cc: eval_with_func; src/c/number.cc: scm_c_minus_wrapper; src/c/string.cc: scm_c_string_append, scm_c_substring; src/c/string.cc: scm_c_string_lt, scm_c_number_to_string; src/c/list.cc: scm_c_member; src/c/alist.cc: scm_c_assoc, scm_c_acons; src/c/char.cc: scm_c_char_lt; src/c/init.cc: init_scm"]}
{"id": "C139", "title": "The option macros reach the options", "statement": "Starting from the initial state, and after any session of such uses, (read-set! opt val), (read-enable flag ...), (read-disable 'flag ...) and the same with debug call the builtin of their family exactly once: with the current options followed by the option and its value, with the flags followed by the current options, or with the current options without the flags; the answer is that of the builtin, an error is an error of the program, and a session of uses leaves exactly the options the option builtins define.", "quantifier": "every sequence of uses, all names of options and flags, all constant values, all option settings, every choice of the other builtins", "why_tests_cant": "all sessions and all settings; the macros expand by code written in the language itself", "anchors": ["src/c/read.cc: init_read_options, scm_c_read_options_interface; src/c/debug.cc: init_debug_options, scm_c_debug_options_interface; src/c/macro.cc: expand_macro_call"]}
{"id": "C140", "title": "A program text prints what Scheme says", "statement": "pscm FILE on a text of a program of the core language (blanks and comments anywhere between tokens) prints, for each form in order whose value is not unspecified, one line with an external representation of the value the semantics of Scheme gives it, nothing else, and exits with status 0; the line is read back as the value; a form that is an error prints nothing on standard output, keeps the effects performed before the error, and the program goes on with the next form; the empty program prints nothing and exits with status 0. A host program that passes the texts to pscm_eval_string gets back these values, and null with a recorded error for a form that is an error.", "quantifier": "every program of the core language and every text of it, every number of steps", "why_tests_cant": "all texts of all programs, through the reader, the evaluator and the printer together", "anchors": ["src/main.cc: do_eval, my_eval; src/c/parse.cc: parse_file, parse; src/c/pscm_api.cc: pscm_eval, pscm_eval_string; src/c/eval.cc: eval_with_env; src/c/print.cc: print_ast"]}
{"id": "C141", "title": "scm_c_eval_string gives the value of the text", "statement": "Calls of scm_c_eval_string on texts of programs of the core language, one after the other, answer the value the semantics of Scheme gives the last form of each, and what a call defines is there in the next; a form that is an error is not answered by a value but raised to the innermost catch; passing a text in two parts gives the same last answer and the same state as passing it in one; a text without expressions answers the unspecified value.", "quantifier": "every sequence of texts of programs, every state and choice of builtins for the last two clauses", "why_tests_cant": "all texts and all sequences of calls", "anchors": ["src/c/eval.cc: scm_c_eval_string, eval_with_env; src/c/parse.cc: parse_string"]}
{"id": "C142", "title": "Printed output comes out in order", "statement": "pscm FILE on a text of a program of the core language that also calls display, write and newline without a port prints, for each form in order, the texts of these calls in the order in which the semantics of Scheme performs them, and then, unless the value of the form is unspecified, a line with an external representation of the value; a form that is an error prints what it printed before the error, and the program goes on with the next form; nothing else; write prints an external representation, display the same with the characters of strings and characters as they are, also inside lists.", "quantifier": "every program of the core language with output and every text of it, every number of steps, everything printed before", "why_tests_cant": "all programs, and output is interleaved with evaluation in loops, recursive calls and map", "anchors": ["src/main.cc: do_eval, my_eval; src/c/string.cc: scm_c_display, scm_c_write, scm_c_newline; src/c/print.cc: print_ast; src/c/eval.cc: eval_with_env"]}
{"id": "C143", "title": "A dialogue shows what Scheme says", "statement": "When forms of the core language are typed into the read-eval-print loop, each on as many lines as one likes, the standard output shows for each form in order: one prompt per line typed (a continuation prompt until the parentheses are closed), the expression read, the texts of the calls of display, write and newline in the order in which the semantics of Scheme performs them, and behind an arrow the value the semantics gives the form (none for the unspecified value, <null> for an error); what a form defines is there in the next one, an error does not end the session, and the end of the input does.", "quantifier": "every sequence of forms, every way to type each of them, every number of steps", "why_tests_cant": "all dialogues, through the line editor, reader, evaluator and printer together", "anchors": ["src/c/repl.cc: repl, is_balanced; src/main.cc: eval; src/c/pscm_api.cc: pscm_eval; src/c/print.cc: print_ast; src/c/string.cc: scm_c_display, scm_c_write, scm_c_newline"]}
{"id": "C144", "title": "The report of an uncaught throw reaches the error port", "statement": "Whatever was done with ports before, an uncaught throw adds its report (key and message, and the frame of the call stack) to the current error port, behind everything written to it: to the string of a string port, and to the file of a file port, where it is when the process ends; if the current error port is closed or a soft port the report goes to the standard error; reporting is always defined. The handler that does not exit ends the process only for the key quit, with the number thrown as the status, and otherwise reports and returns.", "quantifier": "every program on ports before the throw, every key, argument and call stack", "why_tests_cant": "all histories of port operations and all buffer states of the C library", "anchors": ["src/c/throw.cc: scm_uncaught_throw, scm_handle_by_message_noexit, handler_message, write_to_port; src/c/port.cc: scm_current_error_port, scm_set_current_error_port, scm_force_output"]}
{"id": "C145", "title": "eval runs a datum as a program of the top level", "statement": "A call (eval x), wherever it stands and whatever was done before, evaluates x where the call stands and then the datum it gives as a form of the top level: (eval 'form) has the value, the effects and the error of form at top level and ends exactly when it does; (eval '(begin form ...)) and calls of eval on the forms one after the other are the program form ...; local variables of the caller are not visible in the datum; with any number of arguments other than one the call is an error and runs nothing.", "quantifier": "all data, environments and states of the interpreter in which eval and quote have their initial meaning, every choice of the builtins", "why_tests_cant": "all data that are programs, including those that do not terminate, in all environments", "anchors": ["src/c/eval.cc: scm_c_eval, eval_with_env; src/c/function.cc: eval_with_func"]}
{"id": "C146", "title": "A procedure is called what it was first defined as", "statement": "After any history, (procedure-name p) is the name of the first definition of the procedure p -- (define x e) whose value is p, or (define (x ...) ...), also curried, that made it -- and #f if it was never defined; once it has a name, no later definition or assignment changes it; the printed form of p shows this name; for a builtin it is the name of the builtin.", "quantifier": "every sequence of lambda expressions, definitions and assignments", "why_tests_cant": "all histories, in which procedures have many names", "anchors": ["src/c/procedure.cc: scm_c_procedure_name; src/c/define.cc: eval_define; src/c/eval.cc: eval_lambda; src/c/print.cc: print_ast"]}
{"id": "C147", "title": "A guarded evaluation gives the value or what the handler says", "statement": "(catch #t (lambda () body ...) (lambda args handler)) at top level has the value of the body if the semantics of Scheme gives it one; if the body is an error there, the handler is evaluated with the effects performed before the error kept, and its value is that of the form; an error in the handler is an error; in both cases the program goes on in the store so reached. With a constant as handler the form never is an error as long as the body is a value or an error.", "quantifier": "every program of the core language with guarded evaluations, every number of steps, every choice of the other builtins", "why_tests_cant": "all programs and all points at which a body can fail, at any depth of calls", "anchors": ["src/c/throw.cc: scm_c_catch_scheme, scm_c_catch, scm_body_thunk, scm_handle_by_proc; src/c/eval.cc: eval_with_env, eval_lambda; src/c/procedure.cc: apply_procedure"]}
{"id": "C148", "title": "The list builtins compute on data, however they share memory", "statement": "A call of cons, car, cdr, cadr, cddr, caddr, list, length, reverse, append, list-tail, list-ref, list?, eq?, eqv?, equal?, memq, memv, member, assq, assv, assoc, acons or a type predicate on objects that hold data returns an object that holds what Scheme says of these data (and reports an error if it says so), whatever the addresses of the list nodes and whatever they share; every object that held a datum before holds the same datum afterwards; so any sequence of such calls on given data and earlier results computes what Scheme says, and none of the results changes later.", "quantifier": "all data, all heaps that hold them with any sharing, all sequences of calls", "why_tests_cant": "all heaps: the functions copy some nodes and share others, and a shared node that is changed shows only in an object held elsewhere", "anchors": ["src/c/list.cc: scm_append, scm_c_reverse, scm_c_list_tail, scm_c_member; src/c/alist.cc: scm_c_assq, scm_c_assoc, scm_c_acons; src/c/eq.cc: scm_c_is_eq, scm_c_is_equal; src/c/predicate.cc: scm_c_is_list; src/c/pscm.h: scm_cons, car, cdr"]}
{"id": "C149", "title": "The builtins on characters and strings compute on data", "statement": "For every heap, every builtin among char->integer, integer->char, char-upcase, char-downcase, the comparisons of characters with and without case, the classes of characters, symbol->string, string->symbol, string-length, string-ref, substring, string-append, string, string->list, list->string, string=? and the four order comparisons of strings, and number->string with one argument, and all arguments that hold data: if Scheme gives the call the value v, the C function returns an object that holds v, and every object that held a datum before the call holds the same datum after it; if Scheme says that the call (with the right number of arguments) is an error, the C function reports an error and the memory is exactly as before. So programs made of these builtins and the list builtins, with any number of calls on each other's results, compute what Scheme says.", "quantifier": "all heaps (any sharing), all arguments that hold data, all programs of calls of any length", "why_tests_cant": "Strings are buffers with a length, characters bytes and symbols interned C strings; a test looks at a few texts, while the claim is about every text, every index and every sequence of calls, and about everything else that lies in memory.", "anchors": ["src/c/string.cc: scm_c_string_append, scm_c_substring, scm_c_string_to_list, scm_c_list_to_string, scm_c_string_lt, scm_c_number_to_string, init_string; src/c/char.cc: scm_c_char_upcase, scm_c_char_to_integer, init_char; src/c/symbol.cc: scm_c_string_to_symbol, scm_c_symbol_to_string, init_symbol"]}
{"id": "C150", "title": "The numeric builtins compute on data; programs of builtins compute what Scheme says", "statement": "A call of +, *, -, =, <, >, <=, >=, zero?, positive?, negative?, even?, odd?, quotient, remainder, modulo, abs, max, min, gcd or lcm on objects that hold data returns an object that holds what Scheme says of them (and reports an error, with the memory exactly as before, if it says so); every object that held a datum before holds the same datum afterwards. Together with the list, character and string builtins: any program of calls of the builtins of the reference semantics on given data and earlier results computes what Scheme says, whatever the data share in memory, and ends with an error if Scheme says that it is one.", "quantifier": "all data, all heaps that hold them with any sharing, all programs of calls of any length", "why_tests_cant": "all heaps and all sequences of calls: each builtin allocates or shares, and whether the next one reads what was meant shows only for the combination", "anchors": ["src/c/number.cc: scm_c_add_number, scm_c_minus_wrapper, scm_c_eq_chain, scm_c_is_zero, scm_c_quotient, scm_c_modulo, scm_c_abs, scm_c_max, scm_c_gcd, scm_c_lcm, init_number"]}
{"id": "C151", "title": "An assignment to a pair changes the data that contain the pair and no others", "statement": "(set-car! p x), with p a pair that holds (u . w) and x holding the datum v and not containing the pair itself, succeeds; afterwards p holds (v . w), every object that does not contain the pair holds the same datum as before, and every object that does contain it holds the datum it held with the pair read as (v . w) wherever it occurs; (set-cdr! p x) likewise makes it (u . v). If x contains the pair, the call succeeds as well and p then is circular: it holds no datum.", "quantifier": "all heaps that hold the data with any sharing, all pairs and all values", "why_tests_cant": "all heaps: which other data change depends on what they share with the pair, and the cdr is kept in three different ways", "anchors": ["src/c/list.cc: scm_c_set_car, scm_c_set_cdr"]}
{"id": "C152", "title": "The update functions on association lists compute on data and leave the old list alone", "statement": "(assoc-remove! al key) returns a list that holds the data of al without the first entry for the key; (assoc-set! al key v) one in which every entry for the key is (key . v), with a new entry in front if there was none, and so does assq-set! for keys that are integers or symbols; (list-head l n) the first n elements, and an error if there are fewer; in all these cases every object that held a datum before, the old list included, holds the same datum afterwards. (assoc-ref al key) changes nothing and returns the rest of the first entry for the key.", "quantifier": "all data, all heaps that hold them with any sharing", "why_tests_cant": "all heaps: despite the exclamation marks the functions copy, and share what is behind", "anchors": ["src/c/alist.cc: scm_c_assoc_set, scm_c_assq_set, scm_c_assoc_remove, scm_c_assoc_ref; src/c/list.cc: scm_c_list_head"]}
{"id": "C153", "title": "An assignment to a string changes the data that contain the string and no others", "statement": "(string-set! s k c), with s an object that holds a text, k an index in it and c a character, succeeds; afterwards s holds the text with c at the index, every object that does not contain the string holds the same datum as before, and every object that contains it holds the datum it held with the string read anew wherever it occurs; an index outside of the text is an error that changes nothing.", "quantifier": "all heaps that hold the data with any sharing, all strings, indices and characters", "why_tests_cant": "all heaps: which other data change depends on what they share with the string, not on what they look like", "anchors": ["src/c/string.cc: scm_c_string_set"]}
