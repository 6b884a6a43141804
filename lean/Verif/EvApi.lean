import Verif.EvStep
/-!
# The embedding interface: `pscm_eval`, `pscm_parse`, `pscm_eval_string`, `pscm_eval_file`

Model of src/c/pscm_api.cc:29-82.  Not modelled: the null checks of the arguments, `cont_base` (only used to copy the stack), freeing the text of
the previous error.
-/
namespace Pscm.Ev
variable {σ : Type}
open EM (stop getSt modSt)

/-- What reading a text gives (`parse`, src/c/parse.cc; see `Verif.Reader`): a datum, nothing (end of input), a syntax error raised
with `eval_error`, or undefined behaviour (a numeral too large). -/
inductive ReadRes
  | datum (v : V)
  | nothing
  | error (msg : String)
  | overflow
  deriving DecidableEq, Repr

/-- What an embedding call gives its caller: a value, the null pointer, or the null pointer after an error whose key and arguments were
recorded (`g_last_error_key`, `g_last_error_message`). -/
inductive ApiRes
  | value (v : V)
  | null
  | failed (key : Name) (args : V)
  deriving DecidableEq, Repr

/-- `scm_c_catch(#t, body, ..., scm_api_catch_handler)` (src/c/throw.cc:60-131, src/c/error.cc:255-295): as `runCatch`, but the handler is C code
that only records the error. -/
def apiCatch (body : EM σ ApiRes) : EM σ ApiRes := do
  let s ← getSt
  if s.catches.length ≥ 100 then evalError "catch: too many nested catches"
  else do
    let id ← enterCatch (.bool true)
    EM.handle body fun o =>
      match o with
      | .ok v => do
        popCatch
        leave id
        pure v
      | .stop (.err (some t) k a) =>
        if t = id then do
          cutTo id
          popCatch
          leave id
          pure (.failed k a)
        else stop (.err (some t) k a)
      | .stop x => stop x

/-- `parse` of a text, as seen by the API. -/
def parseText : ReadRes → EM σ ApiRes
  | .datum v => pure (.value v)
  | .nothing => pure .null
  | .error msg => evalError msg
  | .overflow => stop .ub

/-- `pscm_eval` (src/c/pscm_api.cc:29-45). -/
def pscmEval (P : Prims σ) (n : Nat) (ast : V) : EM σ ApiRes :=
  apiCatch do
    let v ← ev P n (.eval 0 ast)
    pure (.value v)

/-- `pscm_parse` (src/c/pscm_api.cc:87-99). -/
def pscmParse (t : ReadRes) : EM σ ApiRes := apiCatch (parseText t)

/-- The body of `pscm_eval_string` after parsing. -/
def evalParsed (P : Prims σ) (n : Nat) : ApiRes → EM σ ApiRes
  | .value ast => pscmEval P n ast
  | r => pure r

/-- `pscm_eval_string` (src/c/pscm_api.cc:48-64) on a text that reads as `t`. -/
def pscmEvalString (P : Prims σ) (n : Nat) (t : ReadRes) : EM σ ApiRes :=
  apiCatch do
    let r ← pscmParse t
    evalParsed P n r

end Pscm.Ev
