import Verif.Ports
import Verif.Throw
/-!
# Where the report of an uncaught throw goes (src/c/throw.cc)

The text of the report is `Thr.message` (C113); the ports are those of `Verif.Ports`.
-/
namespace Pscm.Ports
open Rd (Bytes asc)
variable {σ : Type} (W : World σ)

/-- The C stream `stderr`. -/
def stderrK : Nat := 2

/-- `write_to_port` (src/c/throw.cc:194-217).  The loop that enlarges the buffer of a string port is that of `write_string_to_port` (src/c/string.cc:132-135); it would
not end for the capacity 0, which no string port has (src/c/port.cc:210-224). -/
def putErr (s : PS σ) (i : Nat) (t : Bytes) : Res Unit × PS σ :=
  match getPort s i with
  | .ok p =>
    if p.closed then fput W s stderrK (cstr t)
    else match p.kind with
      | .fileOut => match p.file with | some k => fput W s k (cstr t) | none => fput W s stderrK (cstr t)
      | .strOut => intoBuffer s i p (Port.writeString p.out t)
      | _ => fput W s stderrK (cstr t)
  | _ => (.ub, s)

/-- The flush after it (src/c/throw.cc:263-265, 273-275). -/
def flushErr (s : PS σ) (i : Nat) : Res Unit × PS σ :=
  match getPort s i with
  | .ok p => if p.kind = .fileOut then match p.file with | some k => fflush s k | none => (.ok (), s) else (.ok (), s)
  | _ => (.ub, s)

/-- One thing after the other. -/
def thenDo (x : Res Unit × PS σ) (f : PS σ → Res Unit × PS σ) : Res Unit × PS σ :=
  match x with
  | (.ok _, s) => f s
  | x => x

/-- `handler_message` (src/c/throw.cc:220-277).  `stack` is the text `print_eval_stack` (src/c/error.cc:111-141) writes to the standard error, if an evaluation is going
on. -/
def report (s : PS σ) (prog : Option Bytes) (k : Thr.Key) (a : Thr.Args) (stack : Option Bytes) : Res Unit × PS σ :=
  match Thr.message prog k a with
  | none => (.ub, s)
  | some m =>
    let i := current s .error
    let x := thenDo (putErr W s i m) fun s => flushErr s i
    match stack with
    | none => x
    | some t =>
      thenDo (thenDo (thenDo (thenDo x fun s => putErr W s i (asc "\n=== Evaluation Call Stack ===\n")) fun s => fput W s stderrK (cstr t))
        fun s => putErr W s i (asc "=== End of Call Stack ===\n")) fun s => flushErr s i

/-- How `scm_handle_by_message_noexit` ends: the process exits with a status, or it returns `#f` after the report. -/
inductive Handled (σ : Type)
  | exits (status : Int)
  | returned (r : Res Unit × PS σ)

/-- The conversion of `int64_t` to `int` (the low 32 bits). -/
def toInt32 (n : Int) : Int := (n + 2 ^ 31) % 2 ^ 32 - 2 ^ 31

/-- `scm_handle_by_message_noexit` (src/c/throw.cc:280-301); `first` is the first argument, if it is a number. -/
def handleNoexit (s : PS σ) (prog : Option Bytes) (k : Thr.Key) (a : Thr.Args) (first : Option Int) (stack : Option Bytes) : Handled σ :=
  match k with
  | .sym n => if cstr n = asc "quit" then .exits (match first with | some n => toInt32 n | none => 0) else .returned (report W s prog k a stack)
  | .other => .returned (report W s prog k a stack)

/-- `scm_uncaught_throw` (src/c/throw.cc:304-314): the report, then the error port is flushed; then the process ends with status 1. -/
def uncaughtThrow (s : PS σ) (k : Thr.Key) (a : Thr.Args) (stack : Option Bytes) : Res Unit × PS σ :=
  thenDo (report W s none k a stack) fun s =>
    match forceOutput W s (.port (current s .error)) with
    | (.ok _, s) => (.ok (), s)
    | (.err e, s) => (.err e, s)
    | (.abort, s) => (.abort, s)
    | (.ub, s) => (.ub, s)
    | (.oof, s) => (.oof, s)

end Pscm.Ports
