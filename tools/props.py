#!/usr/bin/env python3
"""Generates properties.jsonl (kept in one place so that entries can be appended)."""
import json, os
P = []
def p(i, title, statement, quantifier, why, *anchors):
    P.append(dict(id=i, title=title, statement=statement, quantifier=quantifier,
                  why_tests_cant=why, anchors=list(anchors)))

L='src/c/list.cc'; N='src/c/number.cc'; E='src/c/eq.cc'; A='src/c/alist.cc'; H='src/c/hash_table.cc'
S='src/c/string.cc'; PA='src/c/parse.cc'; PR='src/c/print.cc'; G='src/c/gc.cc'; M='src/c/module.cc'; EV='src/c/eval.cc'

# ---------------- numbers
p('C01','Integer addition, subtraction and multiplication are exact or undefined, never silently wrong',
  '(+ n ...), (- n ...) and (* n ...) on exact integers return exactly the mathematical sum / left-to-right difference / product whenever every running partial result fits in 64 bits; otherwise the C++ program has signed overflow (undefined behaviour), and these are the only integer argument lists for which it does.',
  'every list of exact integers of every length',
  'argument lists are unbounded and the overflow frontier depends on every partial result; a test visits a handful of lists',
  f'{N}: scm_c_add_number, scm_c_mul_number, scm_c_minus_wrapper, BinaryOperator', 'src/c/function.cc: eval_with_func')
p('C02','quotient, remainder and modulo satisfy the division law',
  'For integers n and d with d non-zero, n = d*(quotient n d) + (remainder n d), the remainder has the sign of n and magnitude below |d|, the modulo has the sign of d and magnitude below |d| and is congruent to n; d = 0 raises a Scheme error; the only undefined pair is (-2^63, -1).',
  'every pair of 64-bit integers', '2^128 pairs; sign and boundary combinations are where the bugs are',
  f'{N}: scm_c_quotient, scm_c_modulo, scm_c_remainder')
p('C03','gcd and lcm are the mathematical gcd and lcm',
  '(gcd n ...) is the non-negative greatest common divisor of all arguments, 0 for none; (lcm n ...) is the non-negative least common multiple, 1 for none and 0 if any is 0, whenever intermediate values fit in 64 bits.',
  'every argument list of exact integers', 'needs all lists and all integers; Euclid loop termination is for all inputs',
  f'{N}: scm_c_gcd, scm_c_lcm, gcd/lcm loops')
p('C04','Exact division yields a canonical rational',
  '(/ n d ...) on exact integers returns an integer when the quotient is integral and otherwise a ratio with positive denominator greater than 1 in lowest terms whose value is the exact quotient; division by zero raises a Scheme error.',
  'every list of integers whose running products fit in 64 bits', 'canonical form must hold for all numerators and denominators, including signs',
  f'{N}: scm_c_div, scm_make_ratio')
p('C05','Numeric comparison chains decide the mathematical order',
  '(= n ...), (< n ...), (> n ...), (<= n ...), (>= n ...) on exact integers return #t exactly when every adjacent pair is in the relation, for any number of arguments including zero and one.',
  'every list of exact integers', 'unbounded argument count', f'{N}: scm_c_eq_chain, scm_c_lt_chain, scm_c_gt_chain, scm_c_le_chain, scm_c_ge_chain')
p('C06','even?/odd? decide parity and are complementary',
  'On every exact integer exactly one of even? and odd? is #t and it is the mathematical parity.',
  'every 64-bit integer', 'the failing inputs start at 2^53+1, far outside what a test samples', f'{N}: scm_c_is_odd, scm_c_is_even')
p('C07','max and min return the largest and smallest argument exactly',
  '(max n ...) / (min n ...) on exact integers return an argument that bounds all the arguments.',
  'every non-empty list of exact integers', 'failures need magnitudes above 2^53 in specific combinations', f'{N}: scm_c_max, scm_c_min')
p('C08','expt is integer power',
  '(expt b e) for exact integer b and e >= 0 is b^e whenever the running products fit in 64 bits.',
  'every base and exponent', 'unbounded exponent, loop', f'{N}: scm_c_expt')
p('C09','abs, zero?, positive?, negative? agree with integer arithmetic',
  'abs is absolute value (undefined only at -2^63); exactly one of zero?, positive?, negative? holds for each integer.',
  'every 64-bit integer', '2^64 inputs', f'{N}: scm_c_abs, scm_c_is_zero, scm_c_is_positive, scm_c_is_negative')
p('C10','number->string and string->number are inverse in every radix',
  '(string->number (number->string n r) r) = n for every radix accepted, and the printed digits are the positional representation of n in base r.',
  'every 64-bit integer above the minimum and every radix 2..36', '2^64 * 35 inputs', f'{S}: scm_c_number_to_string, int_to_string_radix, scm_c_string_to_number')
# ---------------- lists
p('C11','cons/car/cdr laws',
  '(car (cons a d)) is a, (cdr (cons a d)) is d for every value d that is acyclic data, and cons changes no existing pair.',
  'every heap and every pair of values', 'heap shapes (shared, dotted, nested) are unbounded', f'{L}: scm_cons', 'src/c/eval.cc: car/cdr builtins')
p('C12','set-car! and set-cdr! update one pair and nothing else',
  'After (set-car! p v), (car p) is v and (cdr p) is unchanged; after (set-cdr! p v), (cdr p) is v and (car p) unchanged; no other pair changes.',
  'every heap, including shared and circular structure', 'aliasing is unbounded', f'{L}: scm_c_set_car, scm_c_set_cdr')
p('C13','length counts the elements of every proper list',
  '(length l) is the number of elements for every proper list and is an error for non-lists.',
  'every list of every length', 'unbounded length', f'{L}: scm_c_length')
p('C14','reverse reverses and allocates fresh structure',
  '(reverse l) has the elements of l in reverse order, shares no pair with l, leaves l unchanged; reversing twice gives the elements of l.',
  'every list', 'unbounded length, aliasing', f'{L}: scm_c_reverse')
p('C15','append concatenates',
  '(append l1 ... ln) for proper lists is the concatenation of the element sequences and leaves the arguments unchanged; a final improper argument becomes the tail.',
  'every list of arguments', 'unbounded arity and lengths; the dotted final argument with several cars is a corner few test', f'{L}: scm_append, _is_dotted_pair')
p('C16','list-ref, list-head and list-tail agree',
  'For every proper list and 0 <= k < length, (list-ref l k) is the k-th element; for 0 <= k <= length, (append (list-head l k) (list-tail l k)) has the elements of l; out-of-range k raises an error and never reads past the end.',
  'every list and every 64-bit k', 'boundary k = length, negative k, size_t conversion', f'{L}: scm_c_list_ref, scm_c_list_head, scm_c_list_tail')
p('C17','last-pair returns the last pair',
  '(last-pair l) returns the last pair of every non-empty proper list and terminates on circular lists with an error.',
  'every list length', 'wrong exactly for odd lengths >= 3: a test with one even-length list passes', f'{L}: scm_c_last_pair')
p('C18','memq, memv and member return the first matching tail',
  '(memX x l) returns the longest tail of l whose car matches x under the corresponding equality, and #f when no element matches.',
  'every object and every list', 'unbounded length and position', f'{L}: scm_c_memq, scm_c_memv, scm_c_member, _eqv')
p('C19','list? recognises exactly the finite proper lists',
  '(list? x) is #t for the empty list and for nil-terminated chains, #f for improper lists and circular chains, and always terminates.',
  'every object, every cycle shape', 'cycle lengths and entry points are unbounded', 'src/c/predicate.cc: scm_c_is_list')
# ---------------- equality
p('C20','equal? is structural equality of the denoted data',
  'On acyclic data made of pairs, vectors, integers, strings (without NUL), symbols, booleans, characters and the empty list, (equal? a b) is #t exactly when a and b denote the same tree, however the pairs are represented internally; hence it is an equivalence relation.',
  'every pair of data', 'trees are unbounded; internal representation of (1 . (2 3)) differs from (1 2 3)', f'{E}: _equal_recursive, _list_equal, scm_c_is_equal')
p('C21','eq? implies eqv? implies equal?',
  'For all objects, if (eq? a b) then (eqv? a b), and if (eqv? a b) then (equal? a b); eq? and eqv? are reflexive.',
  'every pair of objects', 'all type combinations and identities', f'{E}: scm_c_is_eq, scm_c_is_eqv, scm_c_is_equal')
p('C22','The equality used by member/assoc/case/hash tables agrees with equal?',
  'Library procedures that promise equal? comparison (member, assoc, hash-ref) distinguish exactly the data equal? distinguishes.',
  'every pair of data', 'the two comparison functions differ only on dotted chains such as (1 . 2) and (1 2)', f'{E}: _eq, _list_eq, _vector_eq')
# ---------------- alists
p('C23','assq/assv/assoc find the first entry',
  '(assX key alist) returns the first entry whose car matches the key and #f when there is none.',
  'every alist and key', 'unbounded length', f'{A}: scm_c_assq, scm_c_assoc, scm_c_assv, is_eq_pointer')
p('C24','assoc-set! then assoc-ref returns the stored value',
  'After (assoc-set! al k v), looking up k gives v and looking up any other key gives what it gave before.',
  'every alist, key and value', 'list-valued and empty-list values are corner cases tests with atoms never reach', f'{A}: scm_c_assoc_ref, scm_c_assoc_set, scm_c_assq_set')
p('C25','assoc-remove! removes the key',
  'After (assoc-remove! al k) the result has no entry for k and every other lookup is unchanged.',
  'every alist including those with duplicate keys', 'duplicates are unbounded', f'{A}: scm_c_assoc_remove')
# ---------------- hash tables
p('C26','A hash table behaves as a finite map',
  'Under any sequence of hash-set!, hash-remove!, hash-ref, hash-create-handle! and hash-get-handle with one key family, hash-ref returns the most recently stored value for a matching key not removed since, and #f otherwise.',
  'every sequence of operations, capacity and key set on which hashing is compatible with comparison', 'operation histories and bucket collisions are unbounded', f'{H}: scm_c_hash_set, scm_c_hash_ref, scm_c_hash_remove, find_entry_in_bucket, insert_entry_to_bucket')
p('C27','Every key that compares equal hashes equally',
  'Keys considered the same by a hash-table family select the same bucket, so that a stored key can always be found again.',
  'every pair of keys', 'fails only for specific types (floats, characters, ratios, lists containing them)', f'{H}: hash functions, scm_cmp_eq, scm_cmp_eqv, scm_cmp_equal')
p('C28','Hash table size equals the number of live keys and fold visits each once',
  'After any history the entry count equals the number of distinct keys stored and not removed, and hash-fold calls its procedure exactly once per live entry.',
  'every history', 'unbounded histories', f'{H}: scm_c_hash_fold, insert_entry_to_bucket, remove_entry_from_bucket')
# ---------------- vectors
p('C29','Vector accesses are bounds-checked and read the last write',
  '(vector-ref v k) returns the last value stored at k by make-vector/vector/vector-set!; indices outside 0..length-1 raise a Scheme error and never touch memory; other slots are unaffected.',
  'every vector, index and history', 'unbounded lengths, histories and out-of-range indices', 'src/c/vector.cc: scm_c_vector_ref, scm_c_vector_set, scm_c_make_vector_impl')
p('C30','vector->list and list->vector are inverse',
  '(list->vector (vector->list v)) has the elements of v and (vector->list (list->vector l)) the elements of l.',
  'every vector and proper list', 'unbounded length', 'src/c/vector.cc: scm_c_vector_to_list, scm_c_list_to_vector')
# ---------------- strings / chars
p('C31','String accessors are bounds-checked and exact',
  'string-ref, string-set!, substring respect 0 <= start <= end <= length, raise a Scheme error otherwise, and return exactly the selected bytes.',
  'every string and indices', 'unbounded', f'{S}: scm_c_string_ref, scm_c_string_set, scm_c_substring')
p('C32','string-append, string->list, list->string, string-length are a monoid homomorphism',
  'string-append concatenates bytes, length is additive, string->list and list->string are inverse.',
  'every list of strings', 'unbounded', f'{S}: scm_c_string_append, scm_c_string_to_list, scm_c_list_to_string, scm_c_string_length')
p('C33','String comparison is a total order consistent with equality',
  'Exactly one of string<?, string=?, string>? holds; string<=? is the union; transitivity holds; on NUL-free strings it is bytewise lexicographic order.',
  'every pair/triple of strings', 'strings with embedded NUL and high bytes are where strncmp and the length tie-break matter', f'{S}: scm_c_string_lt, scm_c_string_eq, scm_c_string_gt, scm_c_string_le, scm_c_string_ge')
p('C34','Case-insensitive string comparison is comparison of the folded strings',
  'string-ci=? etc. agree with the corresponding case-sensitive comparison applied to case-folded strings.',
  'every pair of strings', 'differs only for bytes >= 128, where char is signed', f'{S}: scm_c_string_ci_lt, scm_c_string_ci_eq, scm_c_string_lt')
p('C35','char->integer and integer->char are inverse and order preserving',
  'integer->char inverts char->integer on 0..255 and rejects everything else; char comparisons agree with integer comparisons.',
  'every integer and character', 'range check over 2^64 integers', 'src/c/char.cc: scm_c_integer_to_char, scm_c_char_to_integer, scm_c_char_lt')
p('C36','symbol->string and string->symbol are inverse; symbols with equal names are eq?',
  '(symbol->string (string->symbol s)) has the bytes of s, and two symbols are eq? exactly when their names are equal (for NUL-free names).',
  'every string', 'unbounded', 'src/c/symbol.cc: scm_c_string_to_symbol, scm_c_symbol_to_string', f'{E}: _sym_eq')
p('C37','gensym never repeats',
  'The symbols returned by any sequence of gensym calls are pairwise not eq?.',
  'every number of calls below the counter range', 'unbounded sequence', 'src/c/symbol.cc: scm_c_gensym')
# ---------------- environments
p('C38','Variable lookup is lexical',
  'A reference finds the binding of the innermost enclosing frame that binds the name, then the module, then the global environment; inner bindings shadow outer ones.',
  'every chain of frames', 'unbounded nesting', 'src/c/environment.cc: scm_env_search, scm_env_exist')
p('C39','set! changes only the binding it names',
  'After (set! x v), x reads v wherever the same binding is visible and every other variable and every shadowed x is unchanged.',
  'every environment chain', 'unbounded chains and shadowing', f'{EV}: eval_set', 'src/c/environment.cc: scm_env_insert')
p('C40','A definition inside a procedure body is local to that body',
  'Evaluating an internal define never changes a binding visible outside the body.',
  'every program', 'requires reasoning over all environments', 'src/c/define.cc: eval_define')
# ---------------- evaluator
p('C41','Evaluation is deterministic and independent of how long it is run',
  'If a program evaluates to an outcome, every longer run gives the same outcome: results never depend on the step budget.',
  'every program, environment and step budget', 'all programs', f'{EV}: eval_with_env')
p('C42','if evaluates exactly one branch',
  '(if c a b) evaluates c, then only a when c is not #f and only b when it is #f; without else the result is unspecified; errors in c propagate.',
  'every condition, branches and state', 'all programs', f'{EV}: eval_if')
p('C43','and/or short-circuit',
  'and returns the first #f or the last value, or returns the first non-#f value or the last; operands after the deciding one are not evaluated.',
  'every operand list', 'unbounded operands', f'{EV}: eval_and, eval_or')
p('C44','begin and bodies run in order and return the last value',
  'A body is evaluated left to right, the effects are those of sequential composition and the result is the last value.',
  'every body', 'unbounded', f'{EV}: eval_with_list')
p('C45','Procedure application binds parameters to arguments by position',
  'Calling a procedure with n fixed parameters on n arguments evaluates the arguments left to right in the caller environment and the body in the captured environment extended with parameter i bound to argument i; a different count raises an error; a rest parameter receives the remaining arguments as a list.',
  'every parameter list and argument list', 'unbounded arity', 'src/c/procedure.cc: apply_procedure, apply_procedure_with_values')
p('C46','Calling a procedure with too few arguments is an error',
  'No parameter is ever left unbound: a call with fewer arguments than required parameters raises an error.',
  'every procedure and argument list', 'only rest-parameter procedures violate it', 'src/c/procedure.cc: apply_procedure')
p('C47','Builtins check arity',
  'A builtin of fixed arity 0..3 called with another number of arguments raises a wrong-number-of-args error and is never entered.',
  'every builtin and argument list', 'unbounded', 'src/c/function.cc: eval_with_func')
p('C48','let is lambda application',
  '(let ((v e) ...) body ...) evaluates like ((lambda (v ...) body ...) e ...); let* like nested lets; letrec binds before evaluating.',
  'every binding list and body', 'unbounded binding lists', 'src/c/let.cc: expand_let, expand_letstar, expand_letrec')
p('C49','Named let keeps its whole body',
  'A named let evaluates every body expression at each iteration.',
  'every named let', 'body length is unbounded', 'src/c/let.cc: expand_let')
p('C50','cond selects the first true clause',
  'cond evaluates tests in order until one is true and evaluates only that clause; else matches; => passes the test value; a test-only clause returns the test value.',
  'every clause list', 'unbounded', 'src/c/cond.cc: eval_cond')
p('C51','case selects the clause containing the key',
  'case evaluates the key once and runs the first clause with a matching datum, else the else clause, otherwise returns.',
  'every clause list', 'unbounded', 'src/c/case.cc: eval_case, value_in_datums')
p('C52','do iterates simultaneously and does not disturb outer variables',
  'do initialises fresh variables, evaluates all steps with the old values before updating, stops when the test is true and leaves outer variables of the same name unchanged.',
  'every do loop and iteration count', 'unbounded iteration', 'src/c/do.cc: eval_do, update_do_variables')
p('C53','map applies position-wise and stops at the shortest list',
  '(map f l1 ... ln) returns the list of results of f on the i-th elements for i below the shortest length, calling f in order.',
  'every n and lists', 'unbounded', 'src/c/map.cc: eval_map')
p('C54','for-each visits every element',
  '(for-each f l) calls f once for each element of l in order.',
  'every list', 'stops early only at an empty-list element', 'src/c/for_each.cc: eval_for_each, is_list_exhausted')
p('C55','apply passes exactly the given arguments',
  '(apply f a ... l) calls f with the values a ... followed by the elements of l, none of them evaluated again.',
  'every argument list', 'fails only when leading values are symbols or lists', 'src/c/apply.cc: eval_apply')
p('C56','force evaluates a promise at most once',
  'Any number of (force p) return the same value and evaluate the delayed expression at most once.',
  'every number of forces', 'unbounded histories', 'src/c/delay.cc: scm_c_force, eval_delay')
p('C57','values/call-with-values deliver the produced values',
  '(call-with-values (lambda () (values v ...)) f) calls f on v ...; one value that happens to be a list is delivered as one argument.',
  'every value list', 'list-valued singletons are the corner', 'src/c/values.cc: scm_c_values, eval_call_with_values')
p('C58','quasiquote without unquote is quote',
  'A quasiquoted template with no unquote at level one evaluates to an equal datum.',
  'every template', 'unbounded templates', 'src/c/quasiquote.cc: quasi')
p('C59','unquote and unquote-splicing substitute values',
  'Each level-one unquote is replaced by its value, each splice inserts the elements of its list value, nested quasiquotes raise the level; everything else is copied.',
  'every template and environment', 'unbounded nesting', 'src/c/quasiquote.cc: quasi, append_two_lists')
p('C60','Macro parameters receive the argument forms unevaluated',
  'A macro defined by (define-macro (m p ...) body) binds p_i to the i-th operand form; a wrong operand count is an error.',
  'every parameter and operand list', 'the one-parameter case is special', 'src/c/macro.cc: expand_macro_call, eval_define_macro')
# ---------------- control
p('C61','catch runs the handler of the innermost matching catch',
  'A throw transfers to the most recently entered, still active catch whose tag is #t or matches the key, and passes key and arguments; with none it is reported as uncaught.',
  'every nesting of catches and throws', 'unbounded nesting', 'src/c/throw.cc: scm_c_catch, scm_throw, tags_match')
p('C62','catch leaves the catch stack as it found it',
  'After a catch returns, normally or by a throw, exactly the catches active before it are active; no history of errors exhausts the stack.',
  'every history of evaluations', 'leaks one slot per crossing error: visible only after ~100', 'src/c/throw.cc: scm_c_catch', 'src/c/pscm_api.cc: pscm_eval')
p('C63','dynamic-wind runs its guards around the body',
  'A normal dynamic-wind runs in, body, out once each in that order for every nesting.',
  'every nesting', 'unbounded', 'src/c/dynwind.cc: eval_dynamic_wind')
p('C64','Continuation jumps run exactly the guards that are crossed',
  'Invoking a continuation runs the out guards of the winds left, innermost first, and the in guards of the winds entered, outermost first, and no guards of winds common to both.',
  'every pair of wind chains', 'unbounded chains', 'src/c/dynwind.cc: find_common_prefix, unwind_wind_chain, rewind_wind_chain', 'src/c/continuation.cc: scm_dynthrow')
p('C65','A throw out of dynamic-wind runs the out guards',
  'When an error leaves a dynamic-wind body the out guard runs before the handler returns.',
  'every program', 'needs all control paths', 'src/c/throw.cc: scm_throw', 'src/c/dynwind.cc: eval_dynamic_wind')
# ---------------- reader / printer
p('C66','The reader terminates and consumes input monotonically',
  'For every input text the reader returns a datum, end of input, or an error; it never loops, never reads beyond the terminating NUL and never moves backwards across a datum boundary.',
  'every byte string', 'unbounded inputs', f'{PA}: parse_expr, parse_list, skip_whitespace')
p('C67','write followed by read gives back an equal datum',
  'Parsing the written representation of any readable datum yields an equal? datum.',
  'every datum in the readable fragment', 'unbounded data', f'{PA}: parse', f'{PR}: print_ast, _print_list')
p('C68','Strings survive write/read',
  'Reading the written form of any string gives the same bytes.',
  'every byte string', 'control and high bytes break it', f'{PR}: _print_ast_with_context', f'{PA}: parse_string')
p('C69','Whitespace and comments do not change what is read',
  'Inserting whitespace or a line comment before a datum does not change the datum read.',
  'every text', 'unbounded', f'{PA}: skip_whitespace')
# ---------------- modules
p('C70','Module lookup order is own bindings, then imports in order',
  'A variable resolves to the module own binding if any, else to the first used interface that has it, else to the root module.',
  'every module graph', 'unbounded graphs', f'{M}: module_search_variable, module_obarray_lookup')
p('C71','Only exported names are visible through an interface',
  'A module using another sees exactly the exported bindings.',
  'every export set', 'needs all graphs and histories', f'{M}: scm_module_export, eval_use_modules, scm_ensure_public_interface')
p('C72','Defining in one module does not affect another',
  'module-define! in a module changes lookups only in that module and in modules that resolve the name through it.',
  'every pair of modules', 'unbounded', f'{M}: scm_module_define, module_obarray_lookup')
p('C73','module-bound? tells whether a variable is bound',
  '(module-bound? m s) is #t exactly when s resolves in m.',
  'every module and symbol', 'wrong exactly for variables whose value is #f', f'{M}: scm_c_module_bound_p')
# ---------------- gc
p('C74','The mark phase marks exactly the reachable blocks',
  'From unmarked heap, after marking, a block is marked iff it is reachable from a root through traced pointers.',
  'every heap graph, including cycles', 'unbounded graphs', f'{G}: mark_phase, push_if_unmarked, trace_scm')
p('C75','Sweep frees exactly the unmarked blocks and preserves live contents',
  'After sweep, live blocks keep their contents with mark cleared, dead blocks are on the free list of their class exactly once.',
  'every heap', 'unbounded heaps', f'{G}: sweep_phase, free_to_list')
p('C76','The allocator returns disjoint zeroed blocks',
  'Every allocation returns a payload disjoint from every live block, large enough for the request, 16-aligned and zeroed.',
  'every sequence of allocations and collections', 'unbounded histories', f'{G}: gc_alloc, bump_allocate, size_to_bucket')
p('C77','A collection never frees a reachable object',
  'Across any sequence of allocation, mutation and collection, a block reachable from the roots stays allocated and unchanged.',
  'every history', 'unbounded histories; fails after a large block of odd size', f'{G}: run_gc, sweep_phase, gc_alloc')
# ---------------- ports etc
p('C78','String input ports deliver the string byte by byte',
  'read-char on a string port returns successive bytes then eof forever; peek-char returns the next byte without consuming it.',
  'every string and sequence of operations', 'unbounded', 'src/c/port.cc: read_char_from_port, peek_char_from_port')
p('C79','String output ports accumulate exactly what was written',
  'get-output-string returns the concatenation of all characters written, for any number of writes, across buffer growth.',
  'every sequence of writes', 'buffer growth boundaries', 'src/c/port.cc: write_char_to_port_string, scm_c_get_output_string')
p('C80','read on a port delivers the whole next expression',
  '(read port) consumes exactly the text of the next datum and returns it.',
  'every text', 'fails beyond 4095 bytes and around character literals', 'src/c/port.cc: read_expr_from_port')
p('C81','Variables are boxes',
  'variable-ref returns the last variable-set! value; an undefined variable is unbound until set and reading it is an error.',
  'every history', 'unbounded', 'src/c/variable.cc: scm_make_variable, scm_variable_ref, scm_variable_set_x, scm_variable_bound_p')
p('C82','Smob types are distinct and data round-trips',
  'Each created smob type has a distinct tag, at most 256 exist, and smob data read back is what was stored.',
  'every sequence of type creations', 'unbounded', 'src/c/smob.cc: scm_make_smob_type, scm_make_smob, scm_smob_data')
p('C83','Read options keep copy implies positions',
  'After any sequence of read-enable/read-disable/read-options calls, if copy is enabled then positions is enabled.',
  'every history', 'unbounded', 'src/c/read.cc: change_read_option_setting, scm_c_read_enable, scm_c_read_disable')
p('C84','Every embedding call leaves the interpreter usable',
  'After any sequence of pscm_eval_string calls, successful or failing, evaluating a constant still succeeds.',
  'every history of evaluations', 'needs ~100 specific failures', 'src/c/pscm_api.cc: pscm_eval, pscm_eval_string', 'src/c/throw.cc: scm_c_catch')
exec(open(os.path.join(os.path.dirname(__file__),'props_more.py')).read()) if os.path.exists(os.path.join(os.path.dirname(__file__),'props_more.py')) else None
ids=[x['id'] for x in P]; assert len(set(ids))==len(ids)
open(os.path.join(os.path.dirname(__file__),'..','properties.jsonl'),'w').write(''.join(json.dumps(x)+'\n' for x in P))
print(len(P))
