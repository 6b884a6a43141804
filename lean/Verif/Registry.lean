import Verif.EvStep
/-!
# The builtins the interpreter registers, and its initial state

Model of `init_scm` (src/c/init.cc:8-55), of the 208 registrations its init functions make with `scm_define_function`, `scm_define_vararg_function`
and `scm_define_generic_function` (src/c/pscm.h:1029-1069), and of the dispatch on the number of arguments in `eval_with_func` (src/c/function.cc:29-109).
Each registration is transcribed with the C function it names and the parameters that C function is defined with.  The six macros `read-set!`,
`debug-set!`, ... that init defines by evaluating strings are transcribed as the data those strings denote.  Not modelled here: the C globals of ports and
modules.
-/
namespace Pscm.Ev
variable {σ : Type}

/-- The parameter list a C function is defined with: so many `SCM *`, or one `SCM_List *`. -/
inductive Params
  | fixed (n : Nat)
  | list
  deriving DecidableEq, Repr

/-- A registration: the Scheme name, the C function, the `n_args` it is registered with, and its parameters. -/
structure Reg where
  name : Name
  cfun : String
  arity : Int
  params : Params
  deriving DecidableEq, Repr

/-- src/c/predicate.cc:133-150. -/
def predicateRegs : List Reg :=
  [⟨"procedure?", "scm_c_is_procedure", 1, .fixed 1⟩, ⟨"boolean?", "scm_c_is_boolean", 1, .fixed 1⟩, ⟨"null?", "scm_c_is_null", 1, .fixed 1⟩,
   ⟨"pair?", "scm_c_is_pair", 1, .fixed 1⟩, ⟨"list?", "scm_c_is_list", 1, .fixed 1⟩, ⟨"number?", "scm_c_is_number", 1, .fixed 1⟩,
   ⟨"complex?", "scm_c_is_complex", 1, .fixed 1⟩, ⟨"real?", "scm_c_is_real", 1, .fixed 1⟩, ⟨"rational?", "scm_c_is_rational", 1, .fixed 1⟩,
   ⟨"integer?", "scm_c_is_integer", 1, .fixed 1⟩, ⟨"exact?", "scm_c_is_exact", 1, .fixed 1⟩, ⟨"inexact?", "scm_c_is_inexact", 1, .fixed 1⟩,
   ⟨"string?", "scm_c_is_string", 1, .fixed 1⟩, ⟨"symbol?", "scm_c_is_symbol", 1, .fixed 1⟩, ⟨"vector?", "scm_c_is_vector", 1, .fixed 1⟩,
   ⟨"not", "scm_c_not", 1, .fixed 1⟩, ⟨"noop", "scm_c_noop", 0, .fixed 0⟩]

/-- src/c/list.cc:569-587. -/
def listRegs : List Reg :=
  [⟨"car", "car", 1, .fixed 1⟩, ⟨"cdr", "cdr", 1, .fixed 1⟩, ⟨"cadr", "cadr", 1, .fixed 1⟩, ⟨"cddr", "cddr", 1, .fixed 1⟩,
   ⟨"caddr", "caddr", 1, .fixed 1⟩, ⟨"cons", "scm_cons", 2, .fixed 2⟩, ⟨"list", "scm_list", (-2), .list⟩, ⟨"append", "scm_append", (-2), .list⟩,
   ⟨"list-head", "scm_c_list_head", 2, .fixed 2⟩, ⟨"list-tail", "scm_c_list_tail", 2, .fixed 2⟩, ⟨"list-ref", "scm_c_list_ref", 2, .fixed 2⟩,
   ⟨"set-car!", "scm_c_set_car", 2, .fixed 2⟩, ⟨"set-cdr!", "scm_c_set_cdr", 2, .fixed 2⟩, ⟨"last-pair", "scm_c_last_pair", 1, .fixed 1⟩,
   ⟨"reverse", "scm_c_reverse", 1, .fixed 1⟩, ⟨"length", "scm_c_length", 1, .fixed 1⟩, ⟨"memq", "scm_c_memq", 2, .fixed 2⟩,
   ⟨"memv", "scm_c_memv", 2, .fixed 2⟩, ⟨"member", "scm_c_member", 2, .fixed 2⟩]

/-- src/c/symbol.cc:125-127. -/
def symbolRegs : List Reg :=
  [⟨"gensym", "scm_c_gensym", 0, .fixed 0⟩, ⟨"symbol->string", "scm_c_symbol_to_string", 1, .fixed 1⟩,
   ⟨"string->symbol", "scm_c_string_to_symbol", 1, .fixed 1⟩]

/-- src/c/apply.cc:163-163. -/
def applyRegs : List Reg :=
  [⟨"apply", "scm_c_apply", (-2), .list⟩]

/-- src/c/map.cc:138-139. -/
def mapRegs : List Reg :=
  [⟨"map", "scm_c_map", (-2), .list⟩, ⟨"map-in-order", "scm_c_map_in_order", (-2), .list⟩]

/-- src/c/number.cc:986-1009. -/
def numberRegs : List Reg :=
  [⟨"positive?", "scm_c_is_positive", 1, .fixed 1⟩, ⟨"negative?", "scm_c_is_negative", 1, .fixed 1⟩, ⟨"zero?", "scm_c_is_zero", 1, .fixed 1⟩,
   ⟨"odd?", "scm_c_is_odd", 1, .fixed 1⟩, ⟨"even?", "scm_c_is_even", 1, .fixed 1⟩, ⟨"+", "scm_c_add_number", (-1), .fixed 2⟩,
   ⟨"=", "scm_c_eq_chain", (-2), .list⟩, ⟨"-", "scm_c_minus_wrapper", (-2), .list⟩, ⟨"*", "scm_c_mul_number", (-1), .fixed 2⟩,
   ⟨"/", "scm_c_div", (-2), .list⟩, ⟨"<=", "scm_c_le_chain", (-2), .list⟩, ⟨">=", "scm_c_ge_chain", (-2), .list⟩,
   ⟨"<", "scm_c_lt_chain", (-2), .list⟩, ⟨">", "scm_c_gt_chain", (-2), .list⟩, ⟨"abs", "scm_c_abs", 1, .fixed 1⟩,
   ⟨"sqrt", "scm_c_sqrt", 1, .fixed 1⟩, ⟨"expt", "scm_c_expt", 2, .fixed 2⟩, ⟨"max", "scm_c_max", (-2), .list⟩,
   ⟨"min", "scm_c_min", (-2), .list⟩, ⟨"quotient", "scm_c_quotient", 2, .fixed 2⟩, ⟨"modulo", "scm_c_modulo", 2, .fixed 2⟩,
   ⟨"remainder", "scm_c_remainder", 2, .fixed 2⟩, ⟨"gcd", "scm_c_gcd", (-2), .list⟩, ⟨"lcm", "scm_c_lcm", (-2), .list⟩]

/-- src/c/continuation.cc:139-140. -/
def continuationRegs : List Reg :=
  [⟨"call-with-current-continuation", "scm_c_call_with_current_continuation", (-2), .list⟩,
   ⟨"call/cc", "scm_c_call_with_current_continuation", (-2), .list⟩]

/-- src/c/throw.cc:566-567. -/
def throwRegs : List Reg :=
  [⟨"catch", "scm_c_catch_scheme", (-2), .list⟩, ⟨"throw", "scm_c_throw_scheme", (-2), .list⟩]

/-- src/c/eq.cc:394-396. -/
def eqRegs : List Reg :=
  [⟨"eq?", "scm_c_is_eq", 2, .fixed 2⟩, ⟨"eqv?", "scm_c_is_eqv", 2, .fixed 2⟩, ⟨"equal?", "scm_c_is_equal", 2, .fixed 2⟩]

/-- src/c/alist.cc:267-274. -/
def alistRegs : List Reg :=
  [⟨"assq", "scm_c_assq", 2, .fixed 2⟩, ⟨"assv", "scm_c_assv", 2, .fixed 2⟩, ⟨"acons", "scm_c_acons", 3, .fixed 3⟩,
   ⟨"assoc", "scm_c_assoc", 2, .fixed 2⟩, ⟨"assoc-ref", "scm_c_assoc_ref", 2, .fixed 2⟩, ⟨"assoc-set!", "scm_c_assoc_set", 3, .fixed 3⟩,
   ⟨"assq-set!", "scm_c_assq_set", 3, .fixed 3⟩, ⟨"assoc-remove!", "scm_c_assoc_remove", 2, .fixed 2⟩]

/-- src/c/char.cc:244-263. -/
def charRegs : List Reg :=
  [⟨"char?", "scm_c_is_char", 1, .fixed 1⟩, ⟨"char->integer", "scm_c_char_to_integer", 1, .fixed 1⟩,
   ⟨"integer->char", "scm_c_integer_to_char", 1, .fixed 1⟩, ⟨"char-upcase", "scm_c_char_upcase", 1, .fixed 1⟩,
   ⟨"char-downcase", "scm_c_char_downcase", 1, .fixed 1⟩, ⟨"char=?", "scm_c_char_eq", 2, .fixed 2⟩, ⟨"char<?", "scm_c_char_lt", 2, .fixed 2⟩,
   ⟨"char>?", "scm_c_char_gt", 2, .fixed 2⟩, ⟨"char<=?", "scm_c_char_le", 2, .fixed 2⟩, ⟨"char>=?", "scm_c_char_ge", 2, .fixed 2⟩,
   ⟨"char-ci=?", "scm_c_char_ci_eq", 2, .fixed 2⟩, ⟨"char-ci<?", "scm_c_char_ci_lt", 2, .fixed 2⟩,
   ⟨"char-ci>?", "scm_c_char_ci_gt", 2, .fixed 2⟩, ⟨"char-ci<=?", "scm_c_char_ci_le", 2, .fixed 2⟩,
   ⟨"char-ci>=?", "scm_c_char_ci_ge", 2, .fixed 2⟩, ⟨"char-alphabetic?", "scm_c_char_alphabetic", 1, .fixed 1⟩,
   ⟨"char-numeric?", "scm_c_char_numeric", 1, .fixed 1⟩, ⟨"char-whitespace?", "scm_c_char_whitespace", 1, .fixed 1⟩,
   ⟨"char-upper-case?", "scm_c_char_upper_case", 1, .fixed 1⟩, ⟨"char-lower-case?", "scm_c_char_lower_case", 1, .fixed 1⟩]

/-- src/c/string.cc:1108-1131. -/
def stringRegs : List Reg :=
  [⟨"string-length", "scm_c_string_length", 1, .fixed 1⟩, ⟨"make-string", "scm_c_make_string", (-2), .list⟩,
   ⟨"string-ref", "scm_c_string_ref", 2, .fixed 2⟩, ⟨"string-set!", "scm_c_string_set", 3, .fixed 3⟩,
   ⟨"string=?", "scm_c_string_eq", 2, .fixed 2⟩, ⟨"string<?", "scm_c_string_lt", 2, .fixed 2⟩, ⟨"string>?", "scm_c_string_gt", 2, .fixed 2⟩,
   ⟨"string<=?", "scm_c_string_le", 2, .fixed 2⟩, ⟨"string>=?", "scm_c_string_ge", 2, .fixed 2⟩,
   ⟨"string-ci=?", "scm_c_string_ci_eq", 2, .fixed 2⟩, ⟨"string-ci<?", "scm_c_string_ci_lt", 2, .fixed 2⟩,
   ⟨"string-ci>?", "scm_c_string_ci_gt", 2, .fixed 2⟩, ⟨"string-ci<=?", "scm_c_string_ci_le", 2, .fixed 2⟩,
   ⟨"string-ci>=?", "scm_c_string_ci_ge", 2, .fixed 2⟩, ⟨"string", "scm_c_string", (-2), .list⟩, ⟨"substring", "scm_c_substring", 3, .fixed 3⟩,
   ⟨"string-append", "scm_c_string_append", (-2), .list⟩, ⟨"string->list", "scm_c_string_to_list", 1, .fixed 1⟩,
   ⟨"list->string", "scm_c_list_to_string", 1, .fixed 1⟩, ⟨"display", "scm_c_display", (-2), .list⟩, ⟨"write", "scm_c_write", (-2), .list⟩,
   ⟨"newline", "scm_c_newline", (-2), .list⟩, ⟨"string->number", "scm_c_string_to_number", (-2), .list⟩,
   ⟨"number->string", "scm_c_number_to_string", (-2), .list⟩]

/-- src/c/port.cc:1187-1227. -/
def portRegs : List Reg :=
  [⟨"open-input-file", "scm_c_open_input_file", 1, .fixed 1⟩, ⟨"open-output-file", "scm_c_open_output_file", 1, .fixed 1⟩,
   ⟨"close-input-port", "scm_c_close_input_port", 1, .fixed 1⟩, ⟨"close-output-port", "scm_c_close_output_port", 1, .fixed 1⟩,
   ⟨"open-input-string", "scm_c_open_input_string", 1, .fixed 1⟩, ⟨"open-output-string", "scm_c_open_output_string", 0, .fixed 0⟩,
   ⟨"get-output-string", "scm_c_get_output_string", 1, .fixed 1⟩, ⟨"read", "scm_c_read", (-2), .list⟩,
   ⟨"read-char", "scm_c_read_char", (-2), .list⟩, ⟨"peek-char", "scm_c_peek_char", (-2), .list⟩,
   ⟨"eof-object?", "scm_c_is_eof_object", 1, .fixed 1⟩, ⟨"char-ready?", "scm_c_char_ready", (-2), .list⟩,
   ⟨"input-port?", "scm_c_is_input_port", 1, .fixed 1⟩, ⟨"output-port?", "scm_c_is_output_port", 1, .fixed 1⟩,
   ⟨"write-char", "scm_c_write_char", (-2), .list⟩, ⟨"current-error-port", "scm_current_error_port", 0, .fixed 0⟩,
   ⟨"set-current-error-port", "scm_set_current_error_port", 1, .fixed 1⟩, ⟨"current-input-port", "scm_current_input_port", 0, .fixed 0⟩,
   ⟨"set-current-input-port", "scm_set_current_input_port", 1, .fixed 1⟩, ⟨"current-output-port", "scm_current_output_port", 0, .fixed 0⟩,
   ⟨"set-current-output-port", "scm_set_current_output_port", 1, .fixed 1⟩, ⟨"force-output", "scm_force_output", (-2), .list⟩,
   ⟨"call-with-input-file", "scm_c_call_with_input_file", (-2), .list⟩, ⟨"call-with-output-file", "scm_c_call_with_output_file", (-2), .list⟩,
   ⟨"call-with-input-string", "scm_c_call_with_input_string", (-2), .list⟩,
   ⟨"call-with-output-string", "scm_c_call_with_output_string", (-2), .list⟩, ⟨"make-soft-port", "scm_c_make_soft_port", (-2), .list⟩]

/-- src/c/delay.cc:112-112. -/
def delayRegs : List Reg :=
  [⟨"force", "scm_c_force", 1, .fixed 1⟩]

/-- src/c/eval.cc:965-966. -/
def evalRegs : List Reg :=
  [⟨"eval", "scm_c_eval", 1, .fixed 1⟩, ⟨"defined?", "scm_c_defined", 1, .fixed 1⟩]

/-- src/c/macro.cc:404-405. -/
def macroRegs : List Reg :=
  [⟨"macroexpand-1", "scm_c_macroexpand_1", 1, .fixed 1⟩, ⟨"macroexpand", "scm_c_macroexpand", 1, .fixed 1⟩]

/-- src/c/values.cc:89-89. -/
def valuesRegs : List Reg :=
  [⟨"values", "scm_c_values", (-2), .list⟩]

/-- src/c/hash_table.cc:504-520. -/
def hashTableRegs : List Reg :=
  [⟨"make-hash-table", "scm_c_make_hash_table_wrapper", (-2), .list⟩, ⟨"hash-set!", "scm_c_hash_set_equal", 3, .fixed 3⟩,
   ⟨"hashq-set!", "scm_c_hash_set_eq", 3, .fixed 3⟩, ⟨"hashv-set!", "scm_c_hash_set_eqv", 3, .fixed 3⟩,
   ⟨"hash-ref", "scm_c_hash_ref_equal", 2, .fixed 2⟩, ⟨"hashq-ref", "scm_c_hash_ref_eq", 2, .fixed 2⟩,
   ⟨"hashv-ref", "scm_c_hash_ref_eqv", 2, .fixed 2⟩, ⟨"hash-get-handle", "scm_c_hash_get_handle_equal", 2, .fixed 2⟩,
   ⟨"hashq-get-handle", "scm_c_hash_get_handle_eq", 2, .fixed 2⟩, ⟨"hashv-get-handle", "scm_c_hash_get_handle_eqv", 2, .fixed 2⟩,
   ⟨"hash-create-handle!", "scm_c_hash_create_handle_equal", 3, .fixed 3⟩, ⟨"hashq-create-handle!", "scm_c_hash_create_handle_eq", 3, .fixed 3⟩,
   ⟨"hashv-create-handle!", "scm_c_hash_create_handle_eqv", 3, .fixed 3⟩, ⟨"hash-remove!", "scm_c_hash_remove_equal", 2, .fixed 2⟩,
   ⟨"hashq-remove!", "scm_c_hash_remove_eq", 2, .fixed 2⟩, ⟨"hashv-remove!", "scm_c_hash_remove_eqv", 2, .fixed 2⟩,
   ⟨"hash-fold", "scm_c_hash_fold_wrapper", 3, .fixed 3⟩]

/-- src/c/procedure.cc:279-279. -/
def procedureRegs : List Reg :=
  [⟨"procedure-name", "scm_c_procedure_name", 1, .fixed 1⟩]

/-- src/c/vector.cc:204-210. -/
def vectorRegs : List Reg :=
  [⟨"make-vector", "scm_c_make_vector", (-2), .list⟩, ⟨"vector", "scm_c_vector", (-2), .list⟩,
   ⟨"vector-length", "scm_c_vector_length", 1, .fixed 1⟩, ⟨"vector-ref", "scm_c_vector_ref", 2, .fixed 2⟩,
   ⟨"vector-set!", "scm_c_vector_set", 3, .fixed 3⟩, ⟨"vector->list", "scm_c_vector_to_list", 1, .fixed 1⟩,
   ⟨"list->vector", "scm_c_list_to_vector", 1, .fixed 1⟩]

/-- src/c/module.cc:1214-1222. -/
def moduleRegs : List Reg :=
  [⟨"current-module", "scm_c_current_module", 0, .fixed 1⟩, ⟨"set-current-module", "scm_c_set_current_module", 1, .fixed 1⟩,
   ⟨"resolve-module", "scm_c_resolve_module", 1, .fixed 1⟩, ⟨"module-ref", "scm_c_module_ref", (-2), .list⟩,
   ⟨"module-bound?", "scm_c_module_bound_p", 2, .fixed 2⟩, ⟨"module?", "scm_c_module_p", 1, .fixed 1⟩,
   ⟨"module-map", "scm_c_module_map", (-2), .list⟩, ⟨"module-use!", "scm_c_module_use", (-2), .list⟩,
   ⟨"set-module-binder!", "scm_c_set_module_binder", 2, .fixed 2⟩]

/-- src/c/load.cc:76-78. -/
def loadRegs : List Reg :=
  [⟨"primitive-load", "scm_primitive_load", 1, .fixed 1⟩, ⟨"load", "scm_primitive_load", 1, .fixed 1⟩]

/-- src/c/smob.cc:416-419. -/
def smobRegs : List Reg :=
  [⟨"scm-make-smob-type", "scm_c_make_smob_type", 2, .fixed 2⟩, ⟨"scm-make-smob", "scm_c_make_smob", 2, .fixed 2⟩,
   ⟨"scm-smob-data", "scm_c_smob_data", 1, .fixed 1⟩, ⟨"scm-smob?", "scm_c_smob_p", 1, .fixed 1⟩]

/-- src/c/variable.cc:95-100. -/
def variableRegs : List Reg :=
  [⟨"make-variable", "scm_make_variable", 1, .fixed 1⟩, ⟨"make-undefined-variable", "scm_make_undefined_variable", 0, .fixed 0⟩,
   ⟨"variable?", "scm_variable_p", 1, .fixed 1⟩, ⟨"variable-ref", "scm_variable_ref", 1, .fixed 1⟩,
   ⟨"variable-set!", "scm_variable_set_x", 2, .fixed 2⟩, ⟨"variable-bound?", "scm_variable_bound_p", 1, .fixed 1⟩]

/-- src/c/read.cc:499-499. -/
def readRegs : List Reg :=
  [⟨"read-options-interface", "scm_c_read_options_interface", (-2), .list⟩]

/-- src/c/debug.cc:281-281. -/
def debugRegs : List Reg :=
  [⟨"debug-options-interface", "scm_c_debug_options_interface", (-2), .list⟩]

/-- src/c/exit.cc:27-27. -/
def exitRegs : List Reg :=
  [⟨"exit", "scm_c_exit", (-2), .list⟩]

/-- src/c/init.cc:43-43. -/
def lastRegs : List Reg :=
  [⟨"gc", "scm_gc", 0, .fixed 0⟩]

/-- All registrations, in the order of `init_scm` (src/c/init.cc:14-43). -/
def registry : List Reg :=
  predicateRegs ++ listRegs ++ symbolRegs ++ applyRegs ++ mapRegs ++ numberRegs ++ continuationRegs ++ throwRegs ++ eqRegs ++
  alistRegs ++ charRegs ++ stringRegs ++ portRegs ++ delayRegs ++ evalRegs ++ macroRegs ++ valuesRegs ++ hashTableRegs ++
  procedureRegs ++ vectorRegs ++ moduleRegs ++ loadRegs ++ smobRegs ++ variableRegs ++ readRegs ++ debugRegs ++ exitRegs ++
  lastRegs

/-- `scm_env_insert(&g_env, name, func, false)` (src/c/environment.cc:30-45): overwrite the entry of that name, else a new first entry. -/
def envInsert (es : List (Name × V)) (x : Name) (v : V) : List (Name × V) :=
  match es.lookup x with
  | some _ => es.map fun e => if e.1 = x then (x, v) else e
  | Option.none => (x, v) :: es

/-- The global environment after the registrations. -/
def registered : List Reg → List (Name × V) → List (Name × V)
  | [], es => es
  | r :: rs, es => registered rs (envInsert es r.name (.func r.name r.arity))

/-- The three `define-macro` forms of an options interface `f`, for the prefix `p` of the macro names: src/c/read.cc:503-535 (`read-options-interface`, prefix
`read`) and src/c/debug.cc:285-313 (`debug-options-interface`, prefix `debug`), as the data the strings denote. -/
def optionForms (set en dis f : Name) : List V :=
  let opts := listOf [.sym f]
  [ -- (define-macro (read-set! opt val) `(f (append (f) (list ',opt ,val))))
    listOf [.sym "define-macro", listOf [.sym set, .sym "opt", .sym "val"],
      listOf [.sym "quasiquote", listOf [.sym f, listOf [.sym "append", opts,
        listOf [.sym "list", listOf [.sym "quote", listOf [.sym "unquote", .sym "opt"]], listOf [.sym "unquote", .sym "val"]]]]]],
    -- (define-macro (read-enable . flags) `(f (append (list ,@flags) (f))))
    listOf [.sym "define-macro", .pair (.sym en) (.sym "flags"),
      listOf [.sym "quasiquote", listOf [.sym f, listOf [.sym "append",
        listOf [.sym "list", listOf [.sym "unquote-splicing", .sym "flags"]], opts]]]],
    -- (define-macro (read-disable . flags) `(f (let (...) (let filter-options (...) (cond ...)))))
    listOf [.sym "define-macro", .pair (.sym dis) (.sym "flags"),
      listOf [.sym "quasiquote", listOf [.sym f,
        listOf [.sym "let", listOf [listOf [.sym "options", opts],
            listOf [.sym "flags-to-remove", listOf [.sym "list", listOf [.sym "unquote-splicing", .sym "flags"]]]],
          listOf [.sym "let", .sym "filter-options",
            listOf [listOf [.sym "remaining", .sym "options"], listOf [.sym "result", listOf [.sym "quote", .nil]]],
            listOf [.sym "cond",
              listOf [listOf [.sym "null?", .sym "remaining"], listOf [.sym "reverse", .sym "result"]],
              listOf [listOf [.sym "and", listOf [.sym "pair?", .sym "remaining"],
                  listOf [.sym "memq", listOf [.sym "car", .sym "remaining"], .sym "flags-to-remove"]],
                listOf [.sym "filter-options", listOf [.sym "cdr", .sym "remaining"], .sym "result"]],
              listOf [listOf [.sym "pair?", .sym "remaining"],
                listOf [.sym "filter-options", listOf [.sym "cdr", .sym "remaining"],
                  listOf [.sym "cons", listOf [.sym "car", .sym "remaining"], .sym "result"]]],
              listOf [.sym "else", .sym "result"]]]]]]] ]

/-- The six forms init evaluates: src/c/read.cc:539-553, src/c/debug.cc:315-328. -/
def initForms : List V :=
  optionForms "read-set!" "read-enable" "read-disable" "read-options-interface" ++
  optionForms "debug-set!" "debug-enable" "debug-disable" "debug-options-interface"

/-- The macro a `define-macro` form makes in the global environment (src/c/macro.cc:278-300): name and macro.  It does nothing for other data. -/
def initMacroOf : V → Option (Name × V)
  | .pair (.sym "define-macro") (.pair (.pair (.sym x) args) body) => some (x, .macro (macroParams args) (mkBody body) 0)
  | _ => Option.none

/-- The macros of the initial state. -/
def initMacros : List (Name × V) := initForms.filterMap initMacroOf

/-- The state after `init_scm` but before the option macros are defined: the global environment, the root module `(pscm-user)`, which is the current module
and holds `%load-path` (src/c/load.cc:74-92).  (In the program a few builtins are registered after the first macros, src/c/init.cc:38-43; the order of the
entries of an environment with distinct names has no effect.) -/
def bare (x : σ) : St σ where
  frames := [⟨registered registry [], Option.none, Option.none⟩]
  mods := [⟨listOf [.sym "pscm-user"], [("%load-path", .nil)], [], [], Option.none⟩]
  cur := 0
  root := 0
  proms := []
  catches := []
  live := []
  winds := []
  conts := []
  next := 0
  ext := x

/-- The state after `init_scm`: the macros are entered in the global environment, the last one first (src/c/macro.cc:305-317, src/c/environment.cc:30-45). -/
def start (x : σ) : St σ :=
  { bare x with frames := [⟨initMacros.reverse ++ registered registry [], Option.none, Option.none⟩] }

/-- How `eval_with_func` enters the C function of a builtin when it is called: with so many `SCM *`, or with one `SCM_List *` (src/c/function.cc:29-109).  For a generic builtin the function is entered once for each argument, with two `SCM *`
(src/c/pscm.h:703-710). -/
inductive Entered
  | args (n : Nat)
  | list
  deriving DecidableEq, Repr

/-- The entries of the C function in a call with `n` arguments, in order. -/
def entries (name : Name) (arity : Int) (n : Nat) : List Entered :=
  if arity = 0 ∨ arity = 1 ∨ arity = 2 ∨ arity = 3 then
    if (n : Int) = arity then [.args n] else []
  else if arity = -1 then List.replicate n (.args 2)
  else if arity = -2 then
    if name = "apply" ∨ name = "map" ∨ name = "map-in-order" then [] else [.list]
  else []

end Pscm.Ev
