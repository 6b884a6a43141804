import Verif.PortsSafe
/-!
# `call-with-input-file` and the like — model of src/c/port.cc:915-1105

The procedure is modelled by what it does in the call: the operations it performs, in order (errors among them are caught by it), and how it
ends, with a value or with an error.  Every run of a procedure is described by such a pair.
-/
namespace Pscm.Ports
open Rd (Bytes)

variable {σ : Type} (W : World σ)

/-- One call of a procedure with a port: the operations and the way it ends. -/
structure Callee where
  ops : Nat → List Op
  ends : Nat → Res Ans

/-- The call of the procedure (`apply_procedure` or `eval_with_func`, src/c/port.cc:945-956); an error that is not caught leaves the C function. -/
def callee (s : PS σ) (f : Callee) (i : Nat) : Res Ans × PS σ :=
  match runs W s (f.ops i) with
  | none => (.ub, s)
  | some (_, s') => (f.ends i, s')

/-- `scm_c_call_with_input_file`, src/c/port.cc:915-962; `none` stands for an argument that is not a string, or not a procedure. -/
def callWithInputFile (s : PS σ) (name : Option Bytes) (f : Option Callee) : Res Ans × PS σ :=
  match name, f with
  | some name, some f =>
    match openInputFile s name with
    | (.ok (.port i), s1) =>
      match callee W s1 f i with
      | (.ok r, s2) =>
        match closeInputPort W s2 (.port i) with
        | (.ok _, s3) => (.ok r, s3)
        | x => x
      | x => x
    | x => x
  | _, _ => (.err .evalError, s)

/-- `scm_c_call_with_output_file`, src/c/port.cc:965-1012. -/
def callWithOutputFile (s : PS σ) (name : Option Bytes) (f : Option Callee) : Res Ans × PS σ :=
  match name, f with
  | some name, some f =>
    match openOutputFile W s name with
    | (.ok (.port i), s1) =>
      match callee W s1 f i with
      | (.ok r, s2) =>
        match closeOutputPort W s2 (.port i) with
        | (.ok _, s3) => (.ok r, s3)
        | x => x
      | x => x
    | x => x
  | _, _ => (.err .evalError, s)

/-- `scm_c_call_with_input_string`, src/c/port.cc:1015-1061. -/
def callWithInputString (s : PS σ) (text : Option Bytes) (f : Option Callee) : Res Ans × PS σ :=
  match text, f with
  | some text, some f =>
    match openInputString s text with
    | (.ok (.port i), s1) => callee W s1 f i
    | x => x
  | _, _ => (.err .evalError, s)

/-- `scm_c_call_with_output_string`, src/c/port.cc:1064-1105. -/
def callWithOutputString (s : PS σ) (f : Option Callee) : Res Ans × PS σ :=
  match f with
  | some f =>
    match openOutputString s with
    | (.ok (.port i), s1) =>
      match callee W s1 f i with
      | (.ok _, s2) => getOutputString s2 (.port i)
      | x => x
    | x => x
  | none => (.err .evalError, s)

end Pscm.Ports
