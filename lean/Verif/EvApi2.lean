import Verif.EvApi
/-!
# The embedding interface, continued: calling procedures, variables, builtins, files

Model of `scm_call_0` ... `scm_call_3`, `scm_apply_0` (src/c/apply.cc), `scm_c_define`, `scm_c_define_gsubr`, `scm_c_module_define`,
`scm_c_module_lookup`, `scm_c_resolve_module` (src/c/module.cc), `scm_c_lookup` (src/c/variable.cc) and `pscm_eval_file` (src/c/pscm_api.cc).
Not modelled: the null checks of the arguments; the variable object that `scm_c_lookup` etc. wrap around the value (a new one at each call, see
`Verif.Misc`) is represented by the value.
-/
namespace Pscm.Ev
variable {σ : Type}
open EM (stop getSt modSt)

/-- `scm_call_0` ... `scm_call_3` (src/c/apply.cc:16-120): a closure is entered with `apply_procedure`, in its own environment; a builtin with
`eval_with_func`. -/
def scmCall (P : Prims σ) (rec : Rec σ) (f : V) (args : List V) : EM σ V :=
  match f with
  | .proc ps b pe => applyProc rec pe ps b pe args
  | .func n a => callFunc P rec n a args
  | _ => evalError "scm_call: expected procedure or function"

/-- `scm_apply_0` (src/c/apply.cc:123-160). -/
def scmApply (P : Prims σ) (rec : Rec σ) (f args : V) : EM σ V :=
  match args with
  | .nil => scmCall P rec f []
  | .pair _ _ => scmCall P rec f (nodes args)
  | _ => evalError "scm_apply_0: args must be a list or nil"

/-- `scm_c_module_define` (src/c/module.cc:601-610). -/
def cModuleDefine (m : Nat) (x : Name) (v : V) : EM σ V := do
  modSt fun s => { s with mods := obSet s.mods m x v }
  pure v

/-- `scm_c_define` (src/c/module.cc:522-531). -/
def cDefine (x : Name) (v : V) : EM σ V := do
  let s ← getSt
  cModuleDefine s.cur x v

/-- `scm_c_module_lookup` (src/c/module.cc:586-599). -/
def cModuleLookup (m : Nat) (x : Name) : EM σ V := do
  let s ← getSt
  match searchModule s.mods s.root m x with
  | some v => pure v
  | Option.none => evalError "scm_c_module_lookup: unbound variable"

/-- `scm_c_lookup` (src/c/variable.cc:58-74). -/
def cLookup (x : Name) : EM σ V := do
  let s ← getSt
  match envSearch s 0 x with
  | some v => pure v
  | Option.none => evalError "scm_c_lookup: unbound variable"

/-- The `n_args` that `scm_c_define_gsubr` gives the builtin (src/c/module.cc:548-557). -/
def gsubrArity (req opt rst : Nat) : Int := if rst ≠ 0 then -2 else if opt > 0 then -2 else req

/-- `scm_c_define_gsubr` (src/c/module.cc:536-563): the builtin is called `x`, what it does is `P.call x`. -/
def cDefineGsubr (x : Name) (req opt rst : Nat) : EM σ V := cDefine x (.func x (gsubrArity req opt rst))

/-- The loop of `pscm_eval_file` (src/c/pscm_api.cc:76-85). -/
def evalEach (P : Prims σ) (n : Nat) : List V → ApiRes → EM σ ApiRes
  | [], last => pure last
  | x :: xs, _ => do
    let r ← pscmEval P n x
    evalEach P n xs r

/-- `pscm_eval_file` (src/c/pscm_api.cc:68-86); `pscm_parse_file` has no `catch` around it (src/c/pscm_api.cc:102-107). -/
def pscmEvalFile (P : Prims σ) (n : Nat) (path : String) : EM σ ApiRes := do
  let s ← getSt
  match P.file path s.ext with
  | .missing => pure .null
  | .malformed => evalError "Parse error"
  | .exprs xs => evalEach P n xs .null

end Pscm.Ev
