p('C85','Exact rationals support arithmetic',
  'Arithmetic and comparison on exact rationals return the exact canonical result; in particular (+ 1/2 1/2) = 1.',
  'every pair of exact rationals', 'all pairs of ratios; addition is the case that fails', f'{N}: scm_c_mul_number, scm_c_add_number, BinaryOperator, scm_make_ratio')
p('C86','Local variables are encapsulated',
  'If no value outside an environment frame refers to it, then code evaluated elsewhere behaves the same whatever that frame\'s variables hold, does not change them, and cannot obtain a reference to the frame.',
  'every expression, every state and every family of builtins', 'requires all programs and all values of the hidden variables', 'src/c/environment.cc: scm_env_search, scm_env_insert; src/c/eval.cc: eval_with_env; src/c/procedure.cc: apply_procedure')
p('C87','The reader understands lists, vectors and abbreviations',
  "A text built from atoms with parentheses, a dotted tail, #( ), the marks ' ` , and ,@, white space and comments reads as exactly the datum it denotes: 'x as (quote x), `x as (quasiquote x), ,x as (unquote x), ,@x as (unquote-splicing x), (a . b) as the pair, nested to any depth.",
  'every text of the grammar, every nesting depth, every choice of blanks', 'unbounded family of texts', 'src/c/parse.cc: parse_quote, parse_quasiquote, parse_unquote_in_list, parse_list, parse_vector, parse_expr')
p('C88','Collections happen when due',
  'An allocation collects garbage exactly when the bytes allocated since the last collection have reached the threshold; after a collection that removes all unreachable objects the count restarts and the threshold is 1.5 times the live bytes, at least 2 MiB; so between collections at most the threshold plus one request is allocated.',
  'every history of allocations, writes and collections', 'requires all histories and heap sizes', 'src/c/gc.cc: gc_alloc, run_gc, sweep_phase')
p('C89','No dangling environments',
  'In every state that a program can reach, every environment captured by a procedure, macro, promise, wind guard or parent link exists; so a procedure value can always be entered, and the environment a call creates is new: nothing refers to it before.',
  'every program, every sequence of evaluations with any outcome, every family of builtins that does not invent references', 'requires all programs and all histories', 'src/c/environment.cc: make_env; src/c/procedure.cc: apply_procedure; src/c/eval.cc: eval_with_env')
p('C90','Loading a file evaluates its expressions in order',
  'load and primitive-load of a readable file evaluate its expressions in order at top level and return what the last one returns; an error in one of them ends the load with that error, later expressions are not evaluated; a file that does not exist or cannot be parsed is an error and none of its expressions is evaluated.',
  'every file content, every state and every family of builtins', 'unbounded file contents and states', 'src/c/load.cc: scm_c_primitive_load, scm_eval_expression_list, scm_primitive_load')
p('C91','One name, one module',
  'A module name denotes one module for ever: two requests for the same name (define-module, use-modules, resolve-module) give the same module; the file of a module is loaded at most once; entering a module again keeps what it contains.',
  'every program and every history of evaluations in between', 'requires all histories', 'src/c/module.cc: scm_resolve_module, scm_make_module, module registry')
p('C92','A bound variable stays bound',
  'No evaluation unbinds a variable: a variable of a module, or one visible from an environment, that has a value has one for ever after; imports and exports are only added, in front of the existing ones.',
  'every program, whatever its outcome, every history', 'requires all programs and histories', 'src/c/module.cc: scm_module_define, scm_c_module_use, scm_module_export; src/c/environment.cc: scm_env_insert')
p('C93','Requesting a module loads its file into that module',
  'use-modules and resolve-module of a name that denotes no module make a module of that name, look for the file in the directories of %load-path in order, evaluate the file with the new module as current module, and make the module that was current before current again; use-modules puts each module in front of the imports of the current module; set-current-module makes a module current and returns the previous one.',
  'every %load-path, every file content, every state', 'unbounded paths, file contents and nesting of requests', 'src/c/module.cc: scm_resolve_module, scm_c_use_module, scm_set_current_module')
p('C94','Options of define-module mean the separate forms',
  '(define-module name #:use-module u ... #:export x ...) does what (define-module name), (use-modules u ...) and (export x ...) do one after the other.',
  'every list of options, every state', 'unbounded option lists and module contents', 'src/c/module.cc: eval_define_module')
p('C95','macroexpand shows what the evaluator evaluates',
  'macroexpand-1 of a macro call is what the macro makes of the operand forms; of anything else, the expression itself with nothing evaluated; macroexpand repeats this until the expression is not a macro call; evaluating a macro call is evaluating the result.',
  'every macro, every expression, every state', 'unbounded expressions, chains of expansions', 'src/c/macro.cc: scm_c_macroexpand_1, scm_c_macroexpand, expand_macros')
p('C96','defined? tells whether a variable can be referenced',
  '(defined? (quote x)) is true exactly if a reference to x at this place has a value.', 'every name, environment and state', 'all programs that bind names', 'src/c/eval.cc: scm_c_defined')
p('C97','call/cc captures the rest of the computation',
  '(call/cc f) calls f once with the continuation; if f returns v the form returns v; if the continuation is called with v, then or later, the form returns v, with the current module as it was at the call/cc.',
  'every procedure f and every use of the continuation', 'quantifies over all uses of the continuation', 'src/c/continuation.cc: scm_make_continuation, scm_dynthrow; src/c/eval.cc: eval_call_cc')
p('C98','Calling procedures from C',
  'scm_call_0 ... scm_call_3 and scm_apply_0 call the procedure on exactly the given values and return its result; anything that is not a procedure is an error.',
  'every procedure, every list of argument values, every state', 'argument values range over all data', 'src/c/apply.cc: scm_call_0, scm_call_1, scm_call_2, scm_call_3, scm_apply_0')
p('C99','Variables defined from C are Scheme variables',
  'After pscm_c_define (x, v) the variable x has the value v for Scheme code and for pscm_c_lookup, and no other variable changes; pscm_c_lookup and pscm_c_module_lookup give the value a Scheme reference would have, or an error.',
  'every name, value and state', 'all names, including those of builtins', 'src/c/module.cc: scm_c_define, scm_c_module_define, scm_c_module_lookup; src/c/variable.cc: scm_c_lookup')
p('C100','Builtins registered from C check their arguments',
  'After pscm_c_define_gsubr (x, req, opt, rst, fcn), a call (x e ...) evaluates the operands in order and calls fcn on the values if their number is allowed by req, opt and rst, and raises an error otherwise.',
  'every req, opt, rst, every call', 'all arities and argument counts', 'src/c/module.cc: scm_c_define_gsubr; src/c/function.cc: eval_with_func')
p('C101','pscm_eval_file evaluates a file',
  'pscm_eval_file evaluates the expressions of the file in order and returns the value of the last; if one fails the call returns NULL with the error recorded and the rest is not evaluated; a file that cannot be read or parsed gives NULL.',
  'every file content and state', 'unbounded file contents', 'src/c/pscm_api.cc: pscm_eval_file, pscm_parse_file')
p('C102','Type predicates classify the data',
  'Every object satisfies at most one of boolean?, symbol?, char?, string?, vector?, procedure?, pair?, null?, number?; the predicates never fail; what constructors return satisfies the predicate of its class; not is true exactly of #f; integers are rational are real are complex are numbers, and each number is exact or inexact.',
  'every object; every constructor call', 'all objects of all types', 'src/c/predicate.cc: scm_c_is_boolean, scm_c_is_pair, scm_c_is_number, scm_c_is_integer; src/c/char.cc: scm_c_is_char')
p('C103','Files written are the files read',
  'A port opened on a file delivers the contents the file had. A file opened for output is empty at first, at any moment holds a prefix of the text sent to the port, and all of it once the port was closed or flushed; a program that then opens the file for input reads exactly the text it wrote.',
  'every program of port operations, every file content, every behaviour of the C library buffers', 'the buffering of the C library and all interleavings of operations on several ports', 'src/c/port.cc: scm_c_open_input_file, scm_c_open_output_file, scm_c_close_output_port, scm_force_output; src/c/string.cc: write_string_to_port')
p('C104','Closed ports are inert',
  'After a port was closed every operation on it has no effect on any file, buffer or other port: reading gives the end of file, writing does nothing, closing again is harmless, get-output-string still gives the text.',
  'every program after the closing', 'all continuations of the program', 'src/c/port.cc: scm_c_close_input_port, scm_c_close_output_port, read_char_from_port, write_char_to_port_string')
p('C105','Ports do not interfere',
  'The operations on one port get the answers they would get if the operations on all other ports were left out; a string input port delivers its string and a string output port collects exactly what was sent to it, whatever happens on other ports in between.',
  'every program of port operations, every port', 'all interleavings', 'src/c/port.cc: read_char_from_port, peek_char_from_port, write_char_to_port_string, scm_c_get_output_string')
p('C106','Current ports',
  'current-input-port, current-output-port and current-error-port return the port set last, which has the right direction; setting one returns the one before; a port of the wrong direction is refused and changes nothing. Operations without a port argument use the current ports.',
  'every program of port operations', 'all histories', 'src/c/port.cc: scm_current_output_port, scm_set_current_output_port, scm_set_current_input_port, scm_c_write_char')
p('C107','Soft ports call their procedures',
  'Every operation on a port made by make-soft-port calls the procedure of the vector that belongs to it exactly once, in order: write-char the first with the character, force-output the third, read-char the fourth, whose value it returns, closing the fifth, and no other calls happen.',
  'every program of port operations, every behaviour of the procedures', 'all programs and all procedures', 'src/c/port.cc: scm_c_make_soft_port, call_soft_port_thunk, read_char_from_port, flush_port')
p('C108','Port operations are always defined',
  'Whatever a program does with its ports, every operation returns or raises a Scheme error.',
  'every program of port operations, every argument', 'all histories of operations', 'src/c/port.cc: scm_c_read_char, scm_c_write_char, scm_c_close_input_port, scm_c_close_output_port; src/c/string.cc: write_string_to_port')
p('C109','call-with-input-file, call-with-output-file and the string versions',
  'The procedure is called with a port on the file or string, closed when the procedure returns; its value is returned, except that call-with-output-string returns exactly the text sent to the port; call-with-output-file leaves exactly that text in the file; wrong arguments are refused before any file is touched.',
  'every procedure, i.e. every sequence of port operations it performs and every way it ends', 'all procedures', 'src/c/port.cc: scm_c_call_with_input_file, scm_c_call_with_output_file, scm_c_call_with_input_string, scm_c_call_with_output_string')
p('C110','Debug options are set as requested',
  'debug-enable and debug-disable switch exactly the named flags; debug-set! gives one option a value and changes nothing else; the list returned by debug-options-interface restores the options later; a call with an error changes nothing.',
  'every state of the options and every argument list', 'all histories of option changes', 'src/c/debug.cc: scm_c_debug_options_interface, change_debug_option_setting, get_debug_option_setting')
p('C111','The REPL evaluates what is typed, once and in order',
  'Every expression typed to the REPL is evaluated exactly once, in the order typed, when its last line has been entered, and its value is printed; an incomplete expression is continued on the next line; at the end of the input the REPL ends.',
  'every input text, every behaviour of the evaluator', 'all interactive sessions', 'src/c/repl.cc: is_balanced, repl')
p('C112','The command line does what the usage text says',
  'The options may be given in any order; exactly one file is evaluated, its expressions in order with the values printed; wrong command lines evaluate nothing and end with status 1; the exit status tells whether the program succeeded, and (exit n) ends it with status n.',
  'every argument vector, every file content, every behaviour of the evaluator', 'all argument vectors and files', 'src/main.cc: main, do_eval, my_eval; src/c/exit.cc: scm_c_exit')
p('C113','An uncaught throw is reported',
  'A throw that no catch handles prints the key and its message to the error port and ends the process with status 1.',
  'every key and message', 'messages of all lengths', 'src/c/throw.cc: handler_message, scm_uncaught_throw')
p('C114','Lazy catches see throws',
  'scm_internal_lazy_catch calls its handler for every throw with a matching key from its body, before the stack is unwound, and otherwise changes nothing.',
  'every program of catches, lazy catches, winds and throws', 'all nestings and histories', 'src/c/throw.cc: scm_c_with_throw_handler, scm_internal_lazy_catch, scm_throw')

p('C115','+ and * take any number of arguments',
  '(+ e ...) and (* e ...) evaluate their arguments from left to right and return the sum or product of their values, for any number of arguments; no arguments give 0 and 1; an argument that fails ends the call.',
  'every list of argument expressions, every state', 'argument lists of all lengths', 'src/c/function.cc: reduce; src/c/number.cc: init_number')
p('C116','Code made by a macro carries the source position of the macro call',
  'After the reader has recorded the position of an object, that position is the one reported for it until it is changed; the expansion of a macro call is given the position of the call, and nothing else changes its position; no recorded file name is used after it is freed.',
  'every heap of located objects, every expansion', 'all shapes of expansions', 'src/c/source_location.cc: copy_source_location, copy_source_location_recursive, set_source_location; src/c/macro.cc: expand_macro_call')
p('C117','Error messages carry their position and text',
  'An error message is printed with the position of the offending expression, as FILE:LINE:COLUMN, followed by its text; long names and messages are cut, never written outside the buffer.',
  'every file name, position, message and type', 'texts of all lengths', 'src/c/source_location.cc: get_source_location_str; src/c/error.cc: eval_error, type_error')
p('C118','The call stack printed with an error lists the evaluations under way',
  'When an error is reported the printed stack lists exactly the expressions whose evaluation has begun and not ended, innermost first, long expressions cut.',
  'every tree of evaluations, calls, errors and handlers', 'all evaluation histories', 'src/c/error.cc: push_eval_stack, pop_eval_stack, print_eval_stack')

p('C119','Tail calls do not consume C stack',
  'The last expression of a procedure body and the chosen branch of an if are evaluated without a further nested invocation of the evaluator, so a loop written as tail recursion runs in constant stack.',
  'every program, loops of every length', 'stack use on loops of all lengths', 'src/c/eval.cc: eval_with_env, eval_with_list; src/c/procedure.cc: apply_procedure')
p('C120','Evaluating an expression does not change it',
  'After an expression has been evaluated, once or often, it is the same datum as before, so that it can be evaluated again with the same meaning.',
  'every expression of the fragment, every memory', 'all expressions and all numbers of evaluations', 'src/c/eval.cc: eval_with_env, eval_list_with_env')
p('C121','The functions of a smob type are used',
  'The functions registered for a smob type, and no others, print, compare and apply its objects: equal? on two objects of the type answers what the equality function answers, printing calls the print function once, a call (smob e ...) evaluates the arguments from left to right and calls the function for that number of arguments; without registered functions the defaults apply. Registering functions for one type does not affect other types.',
  'every history of registrations, every object, every argument list', 'all histories of registrations', 'src/c/smob.cc: scm_make_smob_type, scm_set_smob_equalp, scm_set_smob_print, scm_set_smob_apply, default_smob_print; src/c/eq.cc: _equal_recursive; src/c/eval.cc: eval_with_env')
p('C122','The binder of a module supplies its undefined names',
  'When a name is not bound in a module, its imports or the root module, the binder of the module is called, once, with the module and the name, and supplies the value; bound names never reach it; a binder that looks names up itself does not make the lookup loop; an error in a binder is an ordinary error.',
  'every set of modules, binder and history', 'all binders and histories', 'src/c/module.cc: module_search_variable, scm_c_set_module_binder')
p('C123','Autoloads load on first reference',
  'A module listed with #:autoload is loaded at the first reference to one of its listed names that is not otherwise bound, at most once, and then imported; no other reference loads it.',
  'every set of modules and autoloads, every option list', 'all option lists and histories', 'src/c/module.cc: module_search_variable, eval_define_module')
p('C124','Positions of data and of parse errors are right',
  'The line and column recorded for a datum read from a text, and the line and column of a parse error, are those of the byte of the text where the datum starts or where the reader stopped: lines are counted by newlines, columns by bytes since the last newline; every datum with a recorded position is the one that stands there, and each expression gets one.',
  'every text, read as one datum or as a program', 'all texts', 'src/c/parse.cc: skip_whitespace, parse_number, parse_char, parse_string, parse_symbol, parse_list, parse_vector, parse_expr, parse_file')
p('C125','The report of a parse error shows the text around the error',
  'The numbered lines that a parse error prints are the line of the error, the line before and the line after, each with its own number and text; the caret stands below the byte where the reader stopped; the column of the current position is that byte; the number of frames not shown is the number of frames left.',
  'every text and position', 'all texts and positions', 'src/c/parse.cc: parse_error, print_parse_stack')
p('C126','The parse stack shows the unfinished constructs',
  'The parse stack printed with a parse error lists the lists, vectors, strings and quotations that enclose the error and are unfinished, innermost first, with the place where each starts; after a text has been read the stack is as before.',
  'every text and every history of texts read before', 'all histories of reads and errors', 'src/c/parse.cc: push_parse_stack, pop_parse_stack, print_parse_stack, parse_list, parse_vector, parse_string, parse_quote, parse')
p('C127','Calling a continuation restores the C stack',
  'Calling a continuation, at any time and any number of times, resumes the program where it was captured with the value passed: every live word of the C stack, the stack pointer and the current module are as at the capture, the heap as it is now; the copying never destroys its own frames.',
  'every history of stores, calls, returns, captures and calls of continuations; every stack depth; every frame size', 'depends on the distance between two stack depths and on everything that ran in between', 'src/c/continuation.cc: scm_make_continuation, scm_dynthrow, grow_stack, copy_stack_and_call, scm_stack_size; src/c/eval.cc: scm_c_eval_string; src/c/pscm_api.cc: pscm_eval')
p('C128','Operands of a builtin can be re-entered',
  'When continuations captured in the operands of a call of a builtin are called, the builtin is called with the values delivered on the way to that point, in order, whatever was delivered to other points of the same call before.',
  'every number of operands, every history of returns into the operands', 'the histories form unbounded trees', 'src/c/eval.cc: eval_list_with_env')
p('C129','Each return into a procedure call makes its own variables',
  'When continuations captured in the operands of a call of a closure are called, the body starts with the parameters bound to the values delivered on the way, and the variables of earlier activations are not changed.',
  'every number of parameters, every history of returns into the operands', 'the histories form unbounded trees', 'src/c/procedure.cc: apply_procedure; src/c/environment.cc: scm_env_insert')
p('C130','map can be re-entered',
  'map returns the results of the applications in order; when a continuation captured in an application is called again, map goes on with the elements after that one.',
  'every list of lists, every history of returns of the applications', 'the histories form unbounded trees', 'src/c/map.cc: eval_map')
p('C131','Text passes between C and Scheme unchanged',
  'A text a host passes to the interpreter, with a length or NUL-terminated, becomes a string or symbol with exactly these bytes, and asking for the text of a string gives back exactly its bytes: with a length, NUL bytes included; without, with one terminating NUL, and an error if the string itself contains a NUL. Anything else than a string is refused.',
  'every text and length', 'all texts and lengths, including those no test can allocate', 'src/c/string.cc: scm_from_c_string, scm_from_locale_stringn, scm_to_locale_stringn; src/c/symbol.cc: create_sym, scm_from_locale_symbol, scm_from_locale_symboln, scm_symbol_to_string')
p('C132','A table can change while it is folded',
  'hash-fold and module-map whose procedure inserts, changes or removes entries of the very table end, call the procedure at most once for a key and exactly once, with the value at that time, for every key that is bound at the start and not removed, and pass only entries that are in the table at that time; the result of each call is passed to the next (hash-fold) or collected in order (module-map).',
  'every table, every procedure, every sequence of changes it makes', 'all interleavings of the loop with the changes', 'src/c/hash_table.cc: scm_c_hash_fold, insert_entry_to_bucket, remove_entry_from_bucket, update_entry_value, find_entry_in_bucket; src/c/module.cc: scm_c_module_map')
p('C133','The host reads the last error',
  'After any history of calls of the embedding interface, pscm_get_last_error_key and pscm_get_last_error_message give the name of the symbol thrown and the first text among the first two arguments of the most recent error, and null before the first error; a text once returned stays readable; nothing is freed twice and nothing leaks; whether a call failed can be told from its answer and the last error.',
  'every history of pscm_eval, pscm_parse, pscm_eval_string and pscm_eval_file, with any programs and results', 'all histories of calls and errors', 'src/c/error.cc: scm_api_catch_handler; src/c/pscm_api.cc: pscm_get_last_error_key, pscm_get_last_error_message, pscm_eval, pscm_parse, pscm_eval_string, pscm_eval_file')
p('C134','Modules can be made and used from C',
  'scm_c_call_with_current_module runs the function with the module current and puts the previous module back however the function ends; scm_c_define_module gives the module of that name, made if necessary, runs init inside it and puts the previous module back; what init defines is visible, with its last value, wherever scm_c_use_module imports the module, and imports change only the current module; a name that is not a list is refused.',
  'every interpreter state, every function and init the host passes, every name and every list of definitions', 'the functions the host passes are arbitrary programs', 'src/c/module.cc: scm_c_call_with_current_module, scm_c_define_module, scm_c_use_module, scm_resolve_module, scm_c_define')
p('C135','The builtins are there and get what they expect',
  'After initialisation every builtin is bound, under its name and no other builtin\'s, in the global environment, and nothing else is; whatever the number of arguments of a call, the C function behind a builtin is only ever entered with the parameters it is defined with; a call with the wrong number of arguments is an error in which the builtin is not entered and nothing is changed.',
  'every one of the 208 builtins, every number of arguments and all constant arguments', 'the table is finite but the calls are not, and a mismatch between a registered arity and the C signature shows in no test until the calling convention makes it visible', 'src/c/init.cc: init_scm; src/c/pscm.h: scm_define_function, scm_define_vararg_function, scm_define_generic_function; src/c/function.cc: eval_with_func; src/c/environment.cc: scm_env_insert; src/c/module.cc: scm_c_current_module')
p('C136','Smobs made from Scheme keep their data',
  'scm-make-smob-type answers, for a string and an integer, a tag that no other type has, up to 256 types; scm-make-smob answers, for such a tag and an integer, a smob that no other call has answered, and scm-smob-data gives its integer back whatever is called afterwards if the type has size 0, and is an error if it has another size; calls with anything else are errors that change nothing; none is undefined.',
  'every history of calls with any arguments', 'all histories and arguments', 'src/c/smob.cc: scm_c_make_smob_type, scm_c_make_smob, scm_c_smob_data, scm_c_smob_p, scm_make_smob_with_data; src/c/smob.h: get_smob_num')
p('C137','What the interpreter holds survives a collection',
  'An object held by a registered C variable, by a global Scheme variable, by a register or by the C stack, and everything reachable from it, is intact after every collection; this covers all places where the interpreter or a host program keeps objects: every variable that was registered, the values of options, and the local variables of a host program that called pscm_init.',
  'every heap state, every contents of variables, registers and stack', 'all heaps and stacks at all moments a collection can start', 'src/c/gc.cc: gc_register_root, gc_set_stack_top, scan_conservative_roots, mark_if_valid_block; src/c/gc.h: MAX_ROOTS; src/c/init.cc: init_scm; src/c/pscm_api.cc: pscm_init; src/main.cc: do_eval, main; src/c/read.cc: scm_read_opts; src/c/debug.cc: scm_debug_opts')
p('C138','Programs mean what Scheme says',
  'A program of the core language (constants, quote, variables, lambda with rest parameters, calls, if, set!, begin, let, named let, let*, letrec, and, or, cond, case, do, map, for-each, apply, quasiquote, top-level definitions, definitions of variables at the beginning of bodies) that uses the builtins for integers, lists, equality, searching lists and association lists, types, characters, symbols, strings and their order, and the decimal text of integers, and to which the standard store semantics of Scheme gives a value, is evaluated by the interpreter from its initial state to that value and has no other outcome; one that is an error there (unbound variable, wrong number of arguments, wrong type of argument, division by zero, call of a datum that is not a procedure) ends in an error.',
  'every program of the core language, every number of steps, every choice of the other builtins', 'all programs: agreement on finitely many programs says nothing about the next one', 'src/c/eval.cc: eval_with_env, eval_if, eval_and, eval_or; src/c/cond.cc: eval_cond; src/c/case.cc: eval_case; src/c/let.cc: expand_let, expand_letstar, expand_letrec; src/c/do.cc: eval_do; src/c/map.cc: eval_map; src/c/for_each.cc: eval_for_each; src/c/apply.cc: eval_apply; src/c/quasiquote.cc: eval_quasiquote; src/c/eval.cc: eval_lambda; src/c/procedure.cc: apply_procedure; src/c/function.cc: eval_with_func; src/c/number.cc: scm_c_minus_wrapper; src/c/string.cc: scm_c_string_append, scm_c_substring; src/c/string.cc: scm_c_string_lt, scm_c_number_to_string; src/c/list.cc: scm_c_member; src/c/alist.cc: scm_c_assoc, scm_c_acons; src/c/char.cc: scm_c_char_lt; src/c/init.cc: init_scm')
p('C139','The option macros reach the options',
  'Starting from the initial state, and after any session of such uses, (read-set! opt val), (read-enable flag ...), (read-disable \'flag ...) and the same with debug call the builtin of their family exactly once: with the current options followed by the option and its value, with the flags followed by the current options, or with the current options without the flags; the answer is that of the builtin, an error is an error of the program, and a session of uses leaves exactly the options the option builtins define.',
  'every sequence of uses, all names of options and flags, all constant values, all option settings, every choice of the other builtins', 'all sessions and all settings; the macros expand by code written in the language itself', 'src/c/read.cc: init_read_options, scm_c_read_options_interface; src/c/debug.cc: init_debug_options, scm_c_debug_options_interface; src/c/macro.cc: expand_macro_call')
p('C140','A program text prints what Scheme says',
  'pscm FILE on a text of a program of the core language (blanks and comments anywhere between tokens) prints, for each form in order whose value is not unspecified, one line with an external representation of the value the semantics of Scheme gives it, nothing else, and exits with status 0; the line is read back as the value; a form that is an error prints nothing on standard output, keeps the effects performed before the error, and the program goes on with the next form; the empty program prints nothing and exits with status 0. A host program that passes the texts to pscm_eval_string gets back these values, and null with a recorded error for a form that is an error.',
  'every program of the core language and every text of it, every number of steps', 'all texts of all programs, through the reader, the evaluator and the printer together', 'src/main.cc: do_eval, my_eval; src/c/parse.cc: parse_file, parse; src/c/pscm_api.cc: pscm_eval, pscm_eval_string; src/c/eval.cc: eval_with_env; src/c/print.cc: print_ast')
p('C141','scm_c_eval_string gives the value of the text',
  'Calls of scm_c_eval_string on texts of programs of the core language, one after the other, answer the value the semantics of Scheme gives the last form of each, and what a call defines is there in the next; a form that is an error is not answered by a value but raised to the innermost catch; passing a text in two parts gives the same last answer and the same state as passing it in one; a text without expressions answers the unspecified value.',
  'every sequence of texts of programs, every state and choice of builtins for the last two clauses', 'all texts and all sequences of calls', 'src/c/eval.cc: scm_c_eval_string, eval_with_env; src/c/parse.cc: parse_string')
p('C142','Printed output comes out in order',
  'pscm FILE on a text of a program of the core language that also calls display, write and newline without a port prints, for each form in order, the texts of these calls in the order in which the semantics of Scheme performs them, and then, unless the value of the form is unspecified, a line with an external representation of the value; a form that is an error prints what it printed before the error, and the program goes on with the next form; nothing else; write prints an external representation, display the same with the characters of strings and characters as they are, also inside lists.',
  'every program of the core language with output and every text of it, every number of steps, everything printed before', 'all programs, and output is interleaved with evaluation in loops, recursive calls and map', 'src/main.cc: do_eval, my_eval; src/c/string.cc: scm_c_display, scm_c_write, scm_c_newline; src/c/print.cc: print_ast; src/c/eval.cc: eval_with_env')
p('C143','A dialogue shows what Scheme says',
  'When forms of the core language are typed into the read-eval-print loop, each on as many lines as one likes, the standard output shows for each form in order: one prompt per line typed (a continuation prompt until the parentheses are closed), the expression read, the texts of the calls of display, write and newline in the order in which the semantics of Scheme performs them, and behind an arrow the value the semantics gives the form (none for the unspecified value, <null> for an error); what a form defines is there in the next one, an error does not end the session, and the end of the input does.',
  'every sequence of forms, every way to type each of them, every number of steps', 'all dialogues, through the line editor, reader, evaluator and printer together', 'src/c/repl.cc: repl, is_balanced; src/main.cc: eval; src/c/pscm_api.cc: pscm_eval; src/c/print.cc: print_ast; src/c/string.cc: scm_c_display, scm_c_write, scm_c_newline')
p('C144','The report of an uncaught throw reaches the error port',
  'Whatever was done with ports before, an uncaught throw adds its report (key and message, and the frame of the call stack) to the current error port, behind everything written to it: to the string of a string port, and to the file of a file port, where it is when the process ends; if the current error port is closed or a soft port the report goes to the standard error; reporting is always defined. The handler that does not exit ends the process only for the key quit, with the number thrown as the status, and otherwise reports and returns.',
  'every program on ports before the throw, every key, argument and call stack', 'all histories of port operations and all buffer states of the C library', 'src/c/throw.cc: scm_uncaught_throw, scm_handle_by_message_noexit, handler_message, write_to_port; src/c/port.cc: scm_current_error_port, scm_set_current_error_port, scm_force_output')
p('C145','eval runs a datum as a program of the top level',
  'A call (eval x), wherever it stands and whatever was done before, evaluates x where the call stands and then the datum it gives as a form of the top level: (eval \'form) has the value, the effects and the error of form at top level and ends exactly when it does; (eval \'(begin form ...)) and calls of eval on the forms one after the other are the program form ...; local variables of the caller are not visible in the datum; with any number of arguments other than one the call is an error and runs nothing.',
  'all data, environments and states of the interpreter in which eval and quote have their initial meaning, every choice of the builtins', 'all data that are programs, including those that do not terminate, in all environments', 'src/c/eval.cc: scm_c_eval, eval_with_env; src/c/function.cc: eval_with_func')
p('C146','A procedure is called what it was first defined as',
  'After any history, (procedure-name p) is the name of the first definition of the procedure p -- (define x e) whose value is p, or (define (x ...) ...), also curried, that made it -- and #f if it was never defined; once it has a name, no later definition or assignment changes it; the printed form of p shows this name; for a builtin it is the name of the builtin.',
  'every sequence of lambda expressions, definitions and assignments', 'all histories, in which procedures have many names', 'src/c/procedure.cc: scm_c_procedure_name; src/c/define.cc: eval_define; src/c/eval.cc: eval_lambda; src/c/print.cc: print_ast')
p('C147','A guarded evaluation gives the value or what the handler says',
  '(catch #t (lambda () body ...) (lambda args handler)) at top level has the value of the body if the semantics of Scheme gives it one; if the body is an error there, the handler is evaluated with the effects performed before the error kept, and its value is that of the form; an error in the handler is an error; in both cases the program goes on in the store so reached. With a constant as handler the form never is an error as long as the body is a value or an error.',
  'every program of the core language with guarded evaluations, every number of steps, every choice of the other builtins', 'all programs and all points at which a body can fail, at any depth of calls', 'src/c/throw.cc: scm_c_catch_scheme, scm_c_catch, scm_body_thunk, scm_handle_by_proc; src/c/eval.cc: eval_with_env, eval_lambda; src/c/procedure.cc: apply_procedure')
p('C148','The list builtins compute on data, however they share memory',
  'A call of cons, car, cdr, cadr, cddr, caddr, list, length, reverse, append, list-tail, list-ref, list?, eq?, eqv?, equal?, memq, memv, member, assq, assv, assoc, acons or a type predicate on objects that hold data returns an object that holds what Scheme says of these data (and reports an error if it says so), whatever the addresses of the list nodes and whatever they share; every object that held a datum before holds the same datum afterwards; so any sequence of such calls on given data and earlier results computes what Scheme says, and none of the results changes later.',
  'all data, all heaps that hold them with any sharing, all sequences of calls', 'all heaps: the functions copy some nodes and share others, and a shared node that is changed shows only in an object held elsewhere', 'src/c/list.cc: scm_append, scm_c_reverse, scm_c_list_tail, scm_c_member; src/c/alist.cc: scm_c_assq, scm_c_assoc, scm_c_acons; src/c/eq.cc: scm_c_is_eq, scm_c_is_equal; src/c/predicate.cc: scm_c_is_list; src/c/pscm.h: scm_cons, car, cdr')
p('C149','The builtins on characters and strings compute on data',
"For every heap, every builtin among char->integer, integer->char, char-upcase, char-downcase, the comparisons of characters with and without case, the classes of characters, symbol->string, string->symbol, string-length, string-ref, substring, string-append, string, string->list, list->string, string=? and the four order comparisons of strings, and number->string with one argument, and all arguments that hold data: if Scheme gives the call the value v, the C function returns an object that holds v, and every object that held a datum before the call holds the same datum after it; if Scheme says that the call (with the right number of arguments) is an error, the C function reports an error and the memory is exactly as before. So programs made of these builtins and the list builtins, with any number of calls on each other's results, compute what Scheme says.",
'all heaps (any sharing), all arguments that hold data, all programs of calls of any length',
"Strings are buffers with a length, characters bytes and symbols interned C strings; a test looks at a few texts, while the claim is about every text, every index and every sequence of calls, and about everything else that lies in memory.",
'src/c/string.cc: scm_c_string_append, scm_c_substring, scm_c_string_to_list, scm_c_list_to_string, scm_c_string_lt, scm_c_number_to_string, init_string; src/c/char.cc: scm_c_char_upcase, scm_c_char_to_integer, init_char; src/c/symbol.cc: scm_c_string_to_symbol, scm_c_symbol_to_string, init_symbol')
p('C150','The numeric builtins compute on data; programs of builtins compute what Scheme says',
  "A call of +, *, -, =, <, >, <=, >=, zero?, positive?, negative?, even?, odd?, quotient, remainder, modulo, abs, max, min, gcd or lcm on objects that hold data returns an object that holds what Scheme says of them (and reports an error, with the memory exactly as before, if it says so); every object that held a datum before holds the same datum afterwards. Together with the list, character and string builtins: any program of calls of the builtins of the reference semantics on given data and earlier results computes what Scheme says, whatever the data share in memory, and ends with an error if Scheme says that it is one.",
  'all data, all heaps that hold them with any sharing, all programs of calls of any length', 'all heaps and all sequences of calls: each builtin allocates or shares, and whether the next one reads what was meant shows only for the combination', 'src/c/number.cc: scm_c_add_number, scm_c_minus_wrapper, scm_c_eq_chain, scm_c_is_zero, scm_c_quotient, scm_c_modulo, scm_c_abs, scm_c_max, scm_c_gcd, scm_c_lcm, init_number')
p('C151','An assignment to a pair changes the data that contain the pair and no others',
  '(set-car! p x), with p a pair that holds (u . w) and x holding the datum v and not containing the pair itself, succeeds; afterwards p holds (v . w), every object that does not contain the pair holds the same datum as before, and every object that does contain it holds the datum it held with the pair read as (v . w) wherever it occurs; (set-cdr! p x) likewise makes it (u . v). If x contains the pair, the call succeeds as well and p then is circular: it holds no datum.',
  'all heaps that hold the data with any sharing, all pairs and all values', 'all heaps: which other data change depends on what they share with the pair, and the cdr is kept in three different ways', 'src/c/list.cc: scm_c_set_car, scm_c_set_cdr')
p('C152','The update functions on association lists compute on data and leave the old list alone',
  '(assoc-remove! al key) returns a list that holds the data of al without the first entry for the key; (assoc-set! al key v) one in which every entry for the key is (key . v), with a new entry in front if there was none, and so does assq-set! for keys that are integers or symbols; (list-head l n) the first n elements, and an error if there are fewer; in all these cases every object that held a datum before, the old list included, holds the same datum afterwards. (assoc-ref al key) changes nothing and returns the rest of the first entry for the key.',
  'all data, all heaps that hold them with any sharing', 'all heaps: despite the exclamation marks the functions copy, and share what is behind', 'src/c/alist.cc: scm_c_assoc_set, scm_c_assq_set, scm_c_assoc_remove, scm_c_assoc_ref; src/c/list.cc: scm_c_list_head')
p('C153','An assignment to a string changes the data that contain the string and no others',
  "(string-set! s k c), with s an object that holds a text, k an index in it and c a character, succeeds; afterwards s holds the text with c at the index, every object that does not contain the string holds the same datum as before, and every object that contains it holds the datum it held with the string read anew wherever it occurs; an index outside of the text is an error that changes nothing.",
  'all heaps that hold the data with any sharing, all strings, indices and characters', 'all heaps: which other data change depends on what they share with the string, not on what they look like', 'src/c/string.cc: scm_c_string_set')
