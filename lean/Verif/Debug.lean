import Verif.Basic
/-!
# Debug options — model of `src/c/debug.cc`

The macros `debug-set!`, `debug-enable` and `debug-disable` are modelled by the argument they pass to `debug-options-interface`
(`append`, `list`, `memq`, `reverse` are the subject of C09 – C16).
-/
namespace Pscm.Dbg

/-- The elements of an option list: booleans, numbers, symbols, `(quote x)` forms, anything else. -/
inductive Arg
  | bool (b : Bool)
  | num (n : Int)
  | sym (s : String)
  | quote (x : Arg)
  | other (k : Nat)
  deriving DecidableEq, Repr

/-- `SCM_OPTION_BOOLEAN`, `SCM_OPTION_INTEGER`, `SCM_OPTION_SCM`, src/c/debug.cc:18-20. -/
inductive Ty | boolean | integer | scm
  deriving DecidableEq, Repr

/-- The names and types of `scm_debug_opts`, src/c/debug.cc:24-45, in the order of the array. -/
def table : List (String × Ty) :=
  [("cheap", .boolean), ("breakpoints", .boolean), ("trace", .boolean), ("procnames", .boolean), ("backwards", .boolean), ("width", .integer),
   ("indent", .integer), ("frames", .integer), ("maxdepth", .integer), ("depth", .integer), ("backtrace", .boolean), ("debug", .boolean),
   ("stack", .integer), ("show-file-name", .scm), ("warn-deprecated", .boolean)]

/-- The values: of the boolean options, of the integer options, and of `show-file-name` (0 and 1 stand for `#f` and `#t`). -/
structure Opts where
  flag : String → Bool
  int : String → Int
  file : Arg

/-- The values at the start, src/c/debug.cc:24-45. -/
def defaults : Opts where
  flag := fun n => n = "cheap" || n = "procnames"
  int := fun n => if n = "width" then 79 else if n = "indent" then 10 else if n = "frames" then 3 else if n = "maxdepth" then 1000
    else if n = "depth" then 20 else if n = "stack" then 20000 else 0
  file := .bool true

/-- What one option contributes to the setting, src/c/debug.cc:70-102. -/
def item (o : Opts) : String × Ty → List Arg
  | (n, .boolean) => if o.flag n then [.sym n] else []
  | (n, .integer) => [.sym n, .num (o.int n)]
  | (n, .scm) => [.sym n, o.file]

/-- `get_debug_option_setting`, src/c/debug.cc:63-106: from the last option to the first. -/
def setting (o : Opts) : List Arg := table.reverse.flatMap (item o)

/-- `extract_symbol`, src/c/debug.cc:109-128. -/
def extractSymbol : Arg → Option String
  | .sym s => some s
  | .quote (.sym s) => some s
  | _ => none

/-- `find_debug_option`, src/c/debug.cc:50-57. -/
def find (name : String) : Option Ty := (table.find? fun p => p.1 = name).map (·.2)

/-- The value for an SCM option, src/c/debug.cc:218-240: a `quote` form is opened. -/
def optionValue : Arg → Arg
  | .quote y => y
  | y => y

/-- The loop of `change_debug_option_setting`, src/c/debug.cc:154-246, on the temporary values. -/
def changeLoop (o : Opts) : List Arg → Res Opts
  | [] => .ok o
  | .bool _ :: rest => changeLoop o rest
  | x :: rest =>
    match extractSymbol x with
    | none => changeLoop o rest
    | some name =>
      match find name, rest with
      | none, _ => .err .evalError
      | some .boolean, .bool false :: rest' => changeLoop o rest'
      | some .boolean, rest => changeLoop { o with flag := fun n => if n = name then true else o.flag n } rest
      | some .integer, .num v :: rest' => changeLoop { o with int := fun n => if n = name then v else o.int n } rest'
      | some .integer, _ => .err .evalError
      | some .scm, v :: rest' => changeLoop { o with file := optionValue v } rest'
      | some .scm, [] => .err .evalError

/-- `change_debug_option_setting`, src/c/debug.cc:132-252: the flags start as off; the values are stored only at the end. -/
def change (o : Opts) (args : List Arg) : Res Unit × Opts :=
  match changeLoop { o with flag := fun _ => false } args with
  | .ok o' => (.ok (), o')
  | .err e => (.err e, o)
  | .abort => (.abort, o)
  | .ub => (.ub, o)
  | .oof => (.oof, o)

/-- `scm_c_debug_options_interface`, src/c/debug.cc:255-276; the empty list is not a pair. -/
def interface (o : Opts) (args : List Arg) : Res (List Arg) × Opts :=
  if args = [] then (.ok (setting o), o)
  else
    match change o args with
    | (.ok _, o') => (.ok (setting o'), o')
    | (.err e, o') => (.err e, o')
    | (.abort, o') => (.abort, o')
    | (.ub, o') => (.ub, o')
    | (.oof, o') => (.oof, o')

/-- `(debug-set! opt val)`, src/c/debug.cc:284-288. -/
def debugSet (o : Opts) (opt : String) (val : Arg) : Res (List Arg) × Opts := interface o (setting o ++ [.sym opt, val])

/-- `(debug-enable flag …)`, src/c/debug.cc:291-295; the flags are evaluated. -/
def debugEnable (o : Opts) (flags : List Arg) : Res (List Arg) × Opts := interface o (flags ++ setting o)

/-- `(debug-disable flag …)`, src/c/debug.cc:298-312. -/
def debugDisable (o : Opts) (flags : List Arg) : Res (List Arg) × Opts := interface o ((setting o).filter fun x => !flags.contains x)

/-- An operation on the options. -/
inductive Op
  | interface (args : List Arg)
  | set (opt : String) (val : Arg)
  | enable (flags : List Arg)
  | disable (flags : List Arg)

/-- One operation. -/
def step (o : Opts) : Op → Res (List Arg) × Opts
  | .interface args => interface o args
  | .set opt val => debugSet o opt val
  | .enable fs => debugEnable o fs
  | .disable fs => debugDisable o fs

end Pscm.Dbg
