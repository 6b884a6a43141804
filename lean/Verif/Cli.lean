import Verif.Reader
/-!
# The command line program (src/main.cc) and `exit` (src/c/exit.cc)

Evaluation is an arbitrary function on an arbitrary world.  Not modelled: log output with `--debug`, the texts of the messages.
-/
namespace Pscm.Cli
open Rd

/-- What `main` does with its arguments. -/
inductive Action
  /-- the interactive loop (C111) -/
  | repl
  /-- `show_usage` and exit with status 0 -/
  | help
  /-- a message on `stderr` (with `usage`: followed by the usage text) and exit status 1 -/
  | error (usage : Bool)
  /-- `do_eval` of the file, with or without debugging output -/
  | run (file : String) (debug : Bool)
  deriving DecidableEq, Repr

/-- The loop over the arguments (src/main.cc:72-115); `file` is the local variable `filename`, `debug` the global `debug_enabled`. -/
def argLoop (debug : Bool) (file : Option String) : List String → Action
  | [] => match file with
    | none => .error true
    | some f => .run f debug
  | [a] =>
    if a = "--debug" then argLoop true file []
    else if a = "-h" ∨ a = "--help" then .help
    else if a = "-s" ∨ a = "--test" then .error true
    else match file with
      | some _ => .error false
      | none => argLoop debug (some a) []
  | a :: b :: t =>
    if a = "--debug" then argLoop true file (b :: t)
    else if a = "-h" ∨ a = "--help" then .help
    else if a = "-s" ∨ a = "--test" then
      match file with
      | some _ => .error false
      | none => argLoop debug (some b) t
    else match file with
      | some _ => .error false
      | none => argLoop debug (some a) (b :: t)

/-- `main` (src/main.cc:61-117) on the arguments after the program name. -/
def main (args : List String) : Action := if args.isEmpty then .repl else argLoop false none args

/-! ## Running a file -/

/-- What `pscm_eval` of one expression of the file does: a value with its written text; the unspecified value (`none`); an error, for which it returns
the null pointer after recording it (C55); or the process exits during the evaluation. -/
inductive Out (σ : Type)
  | value (text : Bytes) (s : σ)
  | unspecified (s : σ)
  | error (s : σ)
  | exits (status : Int)

abbrev Eval (σ : Type) := σ → D → Out σ
variable {σ : Type}

/-- The loop of `do_eval` and `my_eval` (src/main.cc:15-27, 51-56): the lines printed and the exit status. -/
def runAll (E : Eval σ) : σ → List D → List Bytes × Int
  | _, [] => ([], 0)
  | s, d :: ds =>
    match E s d with
    | .value t s' => (t :: (runAll E s' ds).1, (runAll E s' ds).2)
    | .unspecified s' => runAll E s' ds
    | .error s' => runAll E s' ds
    | .exits n => ([], n)

/-- What `parse_file` gives (src/c/parse.cc:1413-1468): null if the file cannot be read or has no expressions, the expressions, or an error that is not
caught (`scm_uncaught_throw`, exit status 1). -/
inductive File
  | unreadable
  | exprs (ds : List D)
  | syntaxError
  deriving DecidableEq, Repr

/-- `do_eval` (src/main.cc:42-58). -/
def doEval (E : Eval σ) (s : σ) : File → List Bytes × Int
  | .unreadable => ([], 1)
  | .syntaxError => ([], 1)
  | .exprs [] => ([], 1)
  | .exprs (d :: ds) => runAll E s (d :: ds)

/-! ## `exit` -/

/-- The first argument of `exit`, or none: an integer, a float (`trunc`: its value rounded towards zero), something else. -/
inductive ExitArg
  | none
  | num (n : Int)
  | flo (trunc : Int)
  | other
  deriving DecidableEq, Repr

inductive ExitRes
  /-- the process ends with this status, as the parent sees it -/
  | status (n : Nat)
  | schemeError
  | ub
  deriving DecidableEq, Repr

/-- `exit(status)`: the parent sees the low 8 bits. -/
def exitStatus (status : Int) : Nat := (status % 256).toNat

/-- `scm_c_exit` (src/c/exit.cc:6-25).  The conversion of a `long` to `int` keeps the low 32 bits; of a `double` out of range it is undefined. -/
def exit : ExitArg → ExitRes
  | .none => .status (exitStatus 0)
  | .num n => .status (exitStatus ((n + 2 ^ 31) % 2 ^ 32 - 2 ^ 31))
  | .flo t => if -2 ^ 31 ≤ t ∧ t < 2 ^ 31 then .status (exitStatus t) else .ub
  | .other => .schemeError

end Pscm.Cli
