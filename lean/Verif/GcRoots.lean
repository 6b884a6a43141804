import Verif.Gc
/-!
# Where the collector looks for objects: model of the root registration and of `scan_conservative_roots`

src/c/gc.cc:295-389, the registrations of src/c/init.cc:46-50, src/c/module.cc:1189-1192, src/c/port.cc:1231-1236 and src/c/symbol.cc:7-51, the two places
that set the stack marker (src/main.cc:42-45, 64-67), and `pscm_init` (src/c/pscm_api.cc:19-21).

Not modelled: the layout of `jmp_buf` (its words are given), and that the compiler keeps a local variable in a stack word or a register at all.
-/
namespace Pscm.Gc

/-- The C globals, the C stack and the registers at a moment of the execution. -/
structure World where
  /-- contents of the C variables, by name -/
  var : String → Nat
  /-- `g_root_registry`: the names of the variables registered -/
  registry : List String
  /-- the `value` pointers of the entries of `g_env` -/
  genv : List Nat
  /-- the words of the `jmp_buf` filled by `setjmp` -/
  regs : List Nat
  /-- words of the stack, by address -/
  stack : Nat → Nat
  /-- the address of the local variable `stack_top` of the scanning function -/
  sp : Nat
  /-- `g_gc_stack_top`; `none` is the null pointer -/
  top : Option Nat

/-- `MAX_ROOTS` (src/c/gc.h:102). -/
def maxRoots : Nat := 8192

/-- `gc_register_root` (src/c/gc.cc:299-308): beyond the limit only a warning is printed. -/
def registerRoot (w : World) (x : String) : World :=
  if w.registry.length ≥ maxRoots then w else { w with registry := w.registry ++ [x] }

/-- `gc_set_stack_top` (src/c/gc.cc:295-297). -/
def setStackTop (w : World) (marker : Nat) : World := { w with top := some marker }

/-- `p & ~(sizeof(void *) - 1)`. -/
def alignDown (a : Nat) : Nat := a / 8 * 8

/-- The words at `a`, `a + 8`, ...: `n` of them. -/
def wordsFrom (stack : Nat → Nat) : Nat → Nat → List Nat
  | _, 0 => []
  | a, n + 1 => stack a :: wordsFrom stack (a + 8) n

/-- The scan of the C stack (src/c/gc.cc:365-388). -/
def stackWords (w : World) : List Nat :=
  match w.top with
  | none => []
  | some t =>
    let (a, b) := if w.sp > t then (t, w.sp) else (w.sp, t)
    wordsFrom w.stack (alignDown a) ((alignDown b - alignDown a) / 8)

/-- The words passed to `mark_if_valid_block`, in order (src/c/gc.cc:332-389). -/
def rootWords (w : World) : List Nat :=
  w.registry.map w.var ++ w.genv.filter (· ≠ 0) ++ w.regs ++ stackWords w

/-- A collection in this world. -/
def collect (n : Nat) (h : Heap) (w : World) : R Heap := runGc n h (rootWords w)

/-- The variables that the interpreter registers: at the end of `init_scm` and, for the constants, when they are made. -/
def codeRoots : List String :=
  ["scm_none", "scm_nil", "scm_bool_false", "scm_bool_true", "scm_sym_let", "scm_sym_quote", "scm_sym_quasiquote", "scm_sym_unquote",
   "scm_sym_unquote_splicing", "scm_sym_letrec", "scm_sym_set", "scm_sym_lambda", "g_root_module", "g_wind_chain", "g_current_eval_context", "g_error_key",
   "g_current_module", "g_module_registry", "g_eof_object", "g_current_error_port", "g_current_input_port", "g_current_output_port"]

/-- The other C variables that keep a pointer to an object between two evaluations: the options `keywords` (src/c/read.cc:32, 228-245) and `show-file-name`
(src/c/debug.cc:42). -/
def optionVars : List String := ["scm_read_opts[3].val", "scm_debug_opts[13].val"]

/-- `main` of the interpreter: the marker is set, then `pscm_init` (src/main.cc:42-45, 64-67). -/
def mainStart (w : World) (marker : Nat) : World := codeRoots.foldl registerRoot (setStackTop { w with registry := [] } marker)

/-- `pscm_init` called by a host program (src/c/pscm_api.cc:19-21, src/c/init.cc:8-55): nothing in the interface sets the marker. -/
def hostStart (w : World) : World := codeRoots.foldl registerRoot { w with registry := [], top := none }

end Pscm.Gc
