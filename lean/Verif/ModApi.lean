import Verif.EvApi2
/-!
# The embedding interface: modules

Model of `scm_c_call_with_current_module`, `scm_c_define_module`, `scm_c_use_module`, `scm_c_resolve_module` (src/c/module.cc:573-584, 1104-1195).
The C functions the host passes (`func`, `init`) are arbitrary computations on the interpreter.  Not modelled: the null checks of the arguments and
the null result of `func`.
-/
namespace Pscm.Ev
variable {σ : Type}
open EM (stop getSt modSt)

/-- `scm_c_call_with_current_module` (src/c/module.cc:1104-1118). -/
def cCallWithModule (m : V) (func : EM σ V) : EM σ V :=
  match m with
  | .modl k => do
    let s ← getSt
    modSt fun s => { s with cur := k }
    let r ← func
    modSt fun s' => { s' with cur := s.cur }
    pure r
  | _ => evalError "scm_c_call_with_current_module: expected module"

/-- The common part of the functions that take the name of a module as a text: parse it, refuse what is not a non-empty list, resolve it
(src/c/module.cc:576-584, 1123-1134, 1166-1175).  Parse errors are raised with `eval_error` by the reader. -/
def cNamedModule (P : Prims σ) (rec : Rec σ) (t : ReadRes) : EM σ Nat :=
  match t with
  | .datum (.pair a d) => resolveModule P rec (.pair a d)
  | .error msg => evalError msg
  | .overflow => stop .ub
  | _ => evalError "invalid module name"

/-- `scm_c_define_module` (src/c/module.cc:1121-1145). -/
def cDefineModule (P : Prims σ) (rec : Rec σ) (t : ReadRes) (init : Option (EM σ Unit)) : EM σ Nat := do
  let m ← cNamedModule P rec t
  match init with
  | Option.none => pure m
  | some f => do
    let s ← getSt
    modSt fun s => { s with cur := m }
    f
    modSt fun s' => { s' with cur := s.cur }
    pure m

/-- `scm_c_use_module` (src/c/module.cc:1163-1190): into the module that is current once the imported one is resolved. -/
def cUseModule (P : Prims σ) (rec : Rec σ) (t : ReadRes) : EM σ Unit := do
  let u ← cNamedModule P rec t
  let s ← getSt
  modSt fun s' => { s' with mods := useModule s'.mods s.cur u }

/-- A host `init` function that defines variables with `scm_c_define`. -/
def cDefineAll : List (Name × V) → EM σ Unit
  | [] => pure ()
  | (x, v) :: ds => do
    let _ ← cDefine x v
    cDefineAll ds

end Pscm.Ev
