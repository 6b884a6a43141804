import Verif.Repl
import Verif.Console
import Verif.Registry
/-!
# The read-eval-print loop with the evaluator (src/c/repl.cc, src/main.cc)

`Verif.Repl` models the loop with an arbitrary evaluation; here evaluation is `pscm_eval`.
-/
namespace Pscm.Scr
open Pscm.Ev (V St Prims ApiRes pscmEval start)
open Pscm.Rd (D Bytes FloIO asc print)
variable {σ : Type}

/-- What `print_ast(val)` prints for the answer of `pscm_eval` in `repl` (src/c/repl.cc:125, src/c/print.cc:41-44, 206-209): not in write mode; `none` for the unspecified
value, `<null>` for the null pointer. -/
def replyText (F : FloIO) (obj : V → Bytes) : ApiRes → Bytes
  | .value .none => asc "none"
  | .value v => displayText F obj v
  | .null => asc "<null>"
  | .failed _ _ => asc "<null>"

/-- The evaluation of an expression in `repl` (src/c/repl.cc:123-125, src/main.cc:4-8), with `n` as the bound of the depth: what it prints on the standard output, then
the arrow and the value.  No answer: the process ends, or the bound is too small.  Simplification: the state of the builtins records what evaluations print, not what the
loop itself prints. -/
def replEval (P : Prims σ) (F : FloIO) (obj : V → Bytes) (C : Console σ) (n : Nat) : Repl.Eval (St σ) := fun s d =>
  match ofD d with
  | none => none
  | some v =>
    match pscmEval P n v s with
    | some (.ok r, s') => some ((C.get s'.ext).drop (C.get s.ext).length ++ asc " --> " ++ replyText F obj r, s')
    | _ => none

/-- The bytes that `repl` prints (src/c/repl.cc:72-76, 86, 121-127, 134). -/
def eventText (F : FloIO) : Repl.Event → Bytes
  | .prompt false => asc "pscm> "
  | .prompt true => asc "  ...> "
  | .warning => asc "Warning: input line too long, truncated\n"
  | .echo d => print F false d ++ [10]
  | .value t => t ++ [10]
  | .bye => [10]
  | .parseError => []
  | .ended => []
  | .undefined => []

/-- What `pscm` without a file prints on the standard output, when this is typed. -/
def replOutput (P : Prims σ) (F : FloIO) (obj : V → Bytes) (C : Console σ) (n : Nat) (x : σ) (inp : Bytes) : Bytes :=
  (Repl.repl F (replEval P F obj C n) (start x) inp).flatMap (eventText F)

end Pscm.Scr
