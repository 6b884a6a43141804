import Verif.Script
/-!
# `scm_c_eval_string`

src/c/eval.cc:36-63 on the bytes of a text, with the reader of program texts (`parseAll`, src/c/parse.cc:1472-1526).  Unlike `pscm_eval_string` it reads all
expressions before it evaluates the first and does not catch errors.  Not modelled: `cont_base`, which is set to the address of a local variable if it is null
(see `ContMem`).
-/
namespace Pscm.Scr
open Pscm.Ev (V St EM Out Prims ev evalSeq evalError)
open Pscm.Rd (Bytes FloIO parseAll)
variable {σ : Type}

/-- `scm_c_eval_string` (src/c/eval.cc:36-63); `none` is the null pointer, as argument and as answer.  `parse_string` answers null for a text without
expressions, so that the answer `scm_none()` of line 62 is never given. -/
def evalCString (P : Prims σ) (F : FloIO) (n : Nat) : Option Bytes → EM σ (Option V)
  | none => pure none
  | some text =>
    match parseAll F (text.length + 1) text with
    | .ok ds _ =>
      match exprsOf ds with
      | none => EM.stop .unmod
      | some [] => pure none
      | some (x :: xs) => do
        let v ← evalSeq (ev P n) 0 (x :: xs)
        pure (some v)
    | .err => evalError "Parse error"
    | .null _ => pure none
    | _ => EM.stop .ub

/-- Calls of `scm_c_eval_string`, one after the other: the answers. -/
def cSession (P : Prims σ) (F : FloIO) (n : Nat) : List Bytes → EM σ (List (Option V))
  | [] => pure []
  | t :: ts => do
    let r ← evalCString P F n (some t)
    let rs ← cSession P F n ts
    pure (r :: rs)

end Pscm.Scr
