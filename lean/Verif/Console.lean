import Verif.Script
/-!
# Programs that print

`display`, `write` and `newline` without a port (src/c/string.cc) print on the standard output, as does the loop of `pscm FILE` (src/main.cc).  The stream is a part of the
state of the builtins; all text goes through the same buffer of the C library, so that it comes out in the order in which it is printed.
-/
namespace Pscm.Scr
open Pscm.Ev (V St EM Out Prims ApiRes pscmEval)
open Pscm.Rd (D Bytes FloIO parseAll print)
variable {σ : Type}

/-- The standard output as a part of the state of the builtins: what was printed so far, and printing more. -/
structure Console (σ : Type) where
  get : σ → Bytes
  put : Bytes → σ → σ
  get_put : ∀ b x, get (put b x) = get x ++ b

/-- `print_ast(obj, false)` (src/c/print.cc:35-290); the text of values with procedures and other objects in them, `obj`, is left open. -/
def displayText (F : FloIO) (obj : V → Bytes) (v : V) : Bytes :=
  match toD v with
  | some d => print F false d
  | none => obj v

/-- What `scm_c_display` (src/c/string.cc:164-220), `scm_c_write` (src/c/string.cc:224-280) and `scm_c_newline` (src/c/string.cc:283-305) print when they are called
without a port. -/
def outText (F : FloIO) (obj : V → Bytes) : String → List V → Option Bytes
  | "display", [v] => some (displayText F obj v)
  | "write", [v] => some (valueText F obj v)
  | "newline", [] => some [10]
  | _, _ => none

/-- The builtins `P` include these three: they return the unspecified value, and `display` and `write` raise an error when they are called without arguments
(src/c/string.cc:165-168, 225-228). -/
structure HasOut (P : Prims σ) (F : FloIO) (obj : V → Bytes) (C : Console σ) : Prop where
  ok : ∀ {name args t} (x : σ), outText F obj name args = some t → P.call name args x = .done (.ok .none) (C.put t x)
  err : ∀ {name} (x : σ), name = "display" ∨ name = "write" → ∃ k a, P.call name [] x = .done (.raise k a) x

/-- The builtins `P` with these three replaced. -/
def withOut (F : FloIO) (obj : V → Bytes) (C : Console σ) (P : Prims σ) : Prims σ where
  call := fun name args x =>
    match outText F obj name args with
    | some t => .done (.ok .none) (C.put t x)
    | none => if name = "display" ∨ name = "write" then .done (.raise "error" .nil) x else P.call name args x
  init := P.init
  file := P.file

/-- Print on the standard output. -/
def emit (C : Console σ) (b : Bytes) : EM σ Unit := EM.modSt fun s => { s with ext := C.put b s.ext }

/-- What `my_eval` prints for the answer of `pscm_eval` (src/main.cc:15-27): the value and a line feed. -/
def answerText (F : FloIO) (obj : V → Bytes) (r : ApiRes) : Bytes := (lineOf F obj r).flatMap (· ++ [10])

/-- The loop of `do_eval` (src/main.cc:51-55). -/
def consoleLoop (P : Prims σ) (F : FloIO) (obj : V → Bytes) (C : Console σ) (n : Nat) : List V → EM σ Unit
  | [] => pure ()
  | x :: xs => do
    let r ← pscmEval P n x
    emit C (answerText F obj r)
    consoleLoop P F obj C n xs

/-- `do_eval` (src/main.cc:42-57) after `pscm_init`, on a file with this content (`none`: it cannot be read): the exit status.  Messages for errors go to the standard
error output. -/
def runConsole (P : Prims σ) (F : FloIO) (obj : V → Bytes) (C : Console σ) (n : Nat) : Option Bytes → EM σ Int
  | none => pure 1
  | some text =>
    match parseAll F (text.length + 1) text with
    | .ok ds _ =>
      match exprsOf ds with
      | none => EM.stop .unmod
      | some [] => pure 1
      | some (x :: xs) => do
        consoleLoop P F obj C n (x :: xs)
        pure 0
    | .err => pure 1
    | .null _ => pure 1
    | _ => EM.stop .ub

end Pscm.Scr
