import Verif.EvMod
/-!
# The evaluator: one step, with the recursive calls left open

`step P rec t` is one activation of a C++ function; every call of `eval_with_env` it makes is a call of
`rec`.  `ev P n` closes the recursion with fuel `n`; fuel only bounds the depth of the recursion
(including loops), and `Verif.EvMono` proves that results do not depend on it.
-/
namespace Pscm.Ev
variable {σ : Type}
open EM (stop getSt modSt)

/-- What is to be run.
* `eval e x`: `eval_with_env(e, x)`;
* `expand e x`: `expand_macros(e, x)`;
* `doLoop e test res body steps`: the `while` loop of `eval_do`;
* `mexpand x`: the `while` loop of `scm_c_macroexpand`. -/
inductive Task
  | eval (env : EnvId) (ast : V)
  | expand (env : EnvId) (ast : V)
  | doLoop (env : EnvId) (test res body : V) (steps : List (Name × V))
  | mexpand (ast : V)

abbrev Rec (σ : Type) := Task → EM σ V

/-- How a builtin can end. -/
inductive PrimOut
  | ok (v : V)
  | raise (key : Name) (args : V)
  | abort
  | ub

/-- What a builtin does: it changes the rest of the world, and may call back into the interpreter any number of times, each time
evaluating an expression in the top-level environment (`hash-fold`, `call-with-output-string`, soft ports, ... build a call
expression or apply a procedure, src/c/hash_table.cc:373-426, src/c/port.cc:22-40, 1064-1105) and continuing with its value.  When such an
evaluation leaves by an exception or a jump, the builtin is abandoned (`longjmp`). -/
inductive PrimRes (σ : Type)
  | done (o : PrimOut) (x : σ)
  | eval (e : V) (x : σ) (k : V → σ → PrimRes σ)

/-- What `parse_file` (src/c/parse.cc:1413-1468) makes of a file: `missing` when it cannot be opened, `malformed` when it ends in
`parse_error` (which raises an error), else the expressions in it. -/
inductive FileRes
  | missing
  | malformed
  | exprs (xs : List V)
  deriving DecidableEq

/-- The builtins that the evaluator itself does not implement: an arbitrary family of functions on values and
on the rest of the world, the initial values of the `generic` folds (`+`, `*`, ...), and the files.  Every theorem about
the evaluator holds for every such family. -/
structure Prims (σ : Type) where
  call : Name → List V → σ → PrimRes σ
  init : Name → V
  file : String → σ → FileRes

/-- Run `x` and continue with its outcome, whatever it is (`setjmp` returning normally or by `longjmp`). -/
def EM.handle {α β : Type} (x : EM σ α) (f : Out α → EM σ β) : EM σ β := fun s =>
  match x s with
  | Option.none => Option.none
  | some (o, s') => f o s'

/-- Return the given outcome. -/
def EM.ret {α : Type} (o : Out α) : EM σ α := fun s => some (o, s)

/-- `(quote x)`: `scm_list2(scm_sym_quote(), x)`. -/
def quoted (x : V) : V := .pair (.sym "quote") (.pair x .nil)

/-! ## Sequences, parameters, procedure application -/

/-- `eval_list_with_env` (src/c/eval.cc:20-32). -/
def evalArgs (rec : Rec σ) (e : EnvId) : List V → EM σ (List V)
  | [] => pure []
  | x :: xs => do
    let v ← rec (.eval e x)
    let vs ← evalArgs rec e xs
    pure (v :: vs)

/-- `eval_with_list` (src/c/eval.cc:10-18): `assert(l)`, then in order, the last value is the result. -/
def evalSeq (rec : Rec σ) (e : EnvId) : List V → EM σ V
  | [] => stop .abort
  | [x] => rec (.eval e x)
  | x :: xs => do
    let _ ← rec (.eval e x)
    evalSeq rec e xs

/-- `make_proc` (src/c/pscm.h:178-181): a missing body is the body `(())`. -/
def mkBody : V → V
  | .nil => .pair .nil .nil
  | b => b

/-- Fixed parameters and rest parameter of a parameter list (src/c/procedure.cc:113-139): the last node is the rest
parameter when it is dotted and a symbol. -/
def splitParams : V → List V × Option Name
  | .nil => ([], Option.none)
  | .pair a d => (a :: (splitParams d).1, (splitParams d).2)
  | .sym r => ([], some r)
  | x => ([x], Option.none)

/-- The binding loop of `apply_procedure` (src/c/procedure.cc:141-236) and its check (238-256).  Arguments are evaluated in
`env`, left to right, each bound before the next is evaluated.  Note the case of a rest parameter with too
few arguments: nothing is bound and nothing is reported. -/
def bindParams (rec : Rec σ) (env pe : EnvId) : List V → Option Name → List V → EM σ Unit
  | [], some r, args => do
    let vs ← evalArgs rec env args
    bindOwn pe r (listOf vs)
  | [], Option.none, [] => pure ()
  | [], Option.none, _ :: _ => evalError "Wrong number of arguments"
  | _ :: _, Option.none, [] => evalError "Wrong number of arguments"
  | _ :: _, some _, [] => pure ()
  | .sym x :: ps, r, a :: as => do
    let v ← rec (.eval env a)
    bindOwn pe x v
    bindParams rec env pe ps r as
  | _ :: _, _, _ :: _ => evalError "malformed parameter in lambda list"

/-- `apply_procedure` (src/c/procedure.cc:99-264). -/
def applyProc (rec : Rec σ) (env : EnvId) (params body : V) (penv : EnvId) (args : List V) : EM σ V := do
  let pe ← newEnv penv
  bindParams rec env pe (splitParams params).1 (splitParams params).2 args
  evalSeq rec pe (nodes body)

/-- The binding part of `apply_procedure_with_values` (src/c/procedure.cc:32-90). -/
def bindValues (pe : EnvId) : List V → Option Name → List V → EM σ Unit
  | [], some r, vs => bindOwn pe r (listOf vs)
  | [], Option.none, [] => pure ()
  | [], Option.none, _ :: _ => evalError "too many arguments"
  | .sym x :: ps, r, v :: vs => do
    bindOwn pe x v
    bindValues pe ps r vs
  | .sym _ :: _, _, [] => evalError "too few arguments"
  | _ :: _, _, _ => evalError "procedure parameter must be a symbol"

/-- `apply_procedure_with_values` (src/c/procedure.cc:6-96). -/
def applyProcV (rec : Rec σ) (params body : V) (penv : EnvId) (vals : List V) : EM σ V := do
  let pe ← newEnv penv
  bindValues pe (splitParams params).1 (splitParams params).2 vals
  evalSeq rec pe (nodes body)

/-! ## Promises -/

/-- `eval_delay` (src/c/delay.cc:6-34). -/
def evalDelay (env : EnvId) (rest : V) : EM σ V :=
  match uncons rest with
  | Option.none => evalError "delay: expected one expression"
  | some (x, _) => fun s =>
    some (.ok (.promise s.proms.length), { s with proms := s.proms ++ [⟨env, x, Option.none⟩] })

/-- The cached value of a promise. -/
def promVal (s : St σ) (id : Nat) : Option V :=
  match s.proms[id]? with
  | some p => p.val
  | Option.none => Option.none

/-- `promise->value = result; promise->is_forced = true`. -/
def setProm (id : Nat) (v : V) : EM σ Unit := modSt fun s =>
  match s.proms[id]? with
  | some p => { s with proms := s.proms.set id { p with val := some v } }
  | Option.none => s

/-- `scm_c_force` (src/c/delay.cc:57-107): if not forced, run the thunk; if the promise was forced meanwhile, that
value wins. -/
def force (rec : Rec σ) (id : Nat) : EM σ V := do
  let s ← getSt
  match s.proms[id]? with
  | Option.none => stop .ub
  | some p =>
    match p.val with
    | some v => pure v
    | Option.none => do
      let r ← applyProc rec p.env .nil (.pair p.expr .nil) p.env []
      let s' ← getSt
      match promVal s' id with
      | some v => pure v
      | Option.none => do
        setProm id r
        pure r

/-! ## catch, throw, continuations -/

/-- `handler(handler_data, tag, args)` builds `(tag . args)` (src/c/throw.cc:425-452); when there are no arguments, `args` is the
empty list, which is not a pair, and is passed as one argument. -/
def handlerArgs (key : Name) (args : V) : List V :=
  .sym key :: match args with
    | .pair a d => nodes (.pair a d)
    | x => [x]

/-- Entering `scm_c_catch` (src/c/throw.cc:60-106). -/
def enterCatch (tag : V) : EM σ Nat := fun s =>
  some (.ok s.next, { s with next := s.next + 1, catches := ⟨s.next, tag⟩ :: s.catches, live := s.next :: s.live })

/-- `g_catch_stack_top--`: whatever entry is on top. -/
def popCatch : EM σ Unit := modSt fun s => { s with catches := s.catches.tail }

/-- The C stack is cut back to the frame of activation `id`. -/
def cutTo (id : Nat) : EM σ Unit := modSt fun s => { s with live := s.live.dropWhile (· ≠ id) }

/-- The frame of activation `id` returns. -/
def leave (id : Nat) : EM σ Unit := modSt fun s => { s with live := (s.live.dropWhile (· ≠ id)).tail }

/-- The handler part of `scm_c_catch` (src/c/throw.cc:108-117): the frame of the activation is still there while the handler
runs.  When inner catches were crossed, the entry popped is not the activation's own, so a throw of the handler can jump into the
activation once more; that repetition is not modelled (`unmod`). -/
def runHandler (rec : Rec σ) (id : Nat) (hp hb : V) (he : EnvId) (key : Name) (args : V) : EM σ V := do
  cutTo id
  popCatch
  EM.handle (applyProcV rec hp hb he (handlerArgs key args)) fun o =>
    match o with
    | .ok v => do
      leave id
      pure v
    | .stop (.err (some t) k a) => if t = id then stop .unmod else stop (.err (some t) k a)
    | .stop x => stop x

/-- `scm_c_catch` with a Scheme thunk and handler (src/c/throw.cc:60-131, 412-452). -/
def runCatch (rec : Rec σ) (tag : V) (tp tb : V) (te : EnvId) (hp hb : V) (he : EnvId) : EM σ V := do
  let s ← getSt
  if s.catches.length ≥ 100 then evalError "catch: too many nested catches"
  else do
    let id ← enterCatch tag
    EM.handle (applyProc rec te tp tb te []) fun o =>
      match o with
      | .ok v => do
        popCatch
        leave id
        pure v
      | .stop (.err (some t) k a) =>
        if t = id then runHandler rec id hp hb he k a
        else stop (.err (some t) k a)
      | .stop x => stop x

/-- `scm_c_catch_scheme` (src/c/throw.cc:455-482). -/
def catchPrim (rec : Rec σ) : List V → EM σ V
  | tag :: thunk :: handler :: _ =>
    if (match tag with | .sym _ => true | .bool true => true | _ => false) = true then
      match thunk, handler with
      | .proc tp tb te, .proc hp hb he => runCatch rec tag tp tb te hp hb he
      | _, _ => evalError "catch: thunk and handler must be procedures"
    else evalError "catch: tag must be a symbol or #t"
  | _ => evalError "catch: expected 3 arguments"

/-- `scm_c_throw_scheme` (src/c/throw.cc:485-520). -/
def throwPrim : List V → EM σ V
  | [] => evalError "throw: expected at least 1 argument"
  | .sym k :: args => throwKey k (listOf args)
  | _ :: _ => evalError "throw: key must be a symbol"

/-- `scm_make_continuation` (src/c/continuation.cc:35-70) and what runs under it; invoking the continuation while this frame is
live makes the call return again with the argument and restores the current module. -/
def withCont (k : V → EM σ V) : EM σ V := do
  let s ← getSt
  modSt fun s => { s with next := s.next + 1, live := s.next :: s.live,
                          conts := ⟨s.next, s.winds, s.cur⟩ :: s.conts }
  EM.handle (k (.cont s.next)) fun o =>
    match o with
    | .ok v => do
      leave s.next
      pure v
    | .stop (.esc c v) =>
      if c = s.next then do
        leave s.next
        modSt fun s' => { s' with cur := s.cur }
        pure v
      else stop (.esc c v)
    | .stop x => stop x

/-- Call a guard procedure (src/c/dynwind.cc:108-111, 152-155): `apply_procedure(&g_env, proc, nullptr)`; anything but a
procedure is skipped. -/
def callGuard (rec : Rec σ) : V → EM σ Unit
  | .proc p b e => do
    let _ ← applyProc rec 0 p b e []
    pure ()
  | _ => pure ()

/-- `find_common_prefix` (src/c/dynwind.cc:29-60): entries are compared from the head, i.e. from the innermost. -/
def commonPrefix : List Wind → List Wind → List Wind
  | a :: as, b :: bs => if a.id = b.id then a :: commonPrefix as bs else []
  | _, _ => []

/-- The entries that `unwind_wind_chain` collects (src/c/dynwind.cc:71-99): from the innermost until one that is in the common prefix. -/
def toUnwind (common cur : List Wind) : List Wind :=
  cur.takeWhile fun w => !(common.any fun c => c.id = w.id)

/-- Call out guards of a list in order. -/
def callOuts (rec : Rec σ) : List Wind → EM σ Unit
  | [] => pure ()
  | w :: ws => do
    callGuard rec w.outG
    callOuts rec ws

/-- Call in guards of a list in order, pushing each entry (src/c/dynwind.cc:146-165). -/
def callIns (rec : Rec σ) : List Wind → EM σ Unit
  | [] => pure ()
  | w :: ws => do
    callGuard rec w.inG
    modSt fun s => { s with winds := w :: s.winds }
    callIns rec ws

/-- `unwind_wind_chain` (src/c/dynwind.cc:64-118) and `rewind_wind_chain` (121-167).  The list of entries to unwind is built by pushing at the
head while walking from the innermost, so the guards are called outermost first. -/
def switchWinds (rec : Rec σ) (target : List Wind) : EM σ Unit := do
  let s ← getSt
  let common := commonPrefix s.winds target
  callOuts rec (toUnwind common s.winds).reverse
  modSt fun s => { s with winds := common }
  callIns rec (target.drop common.length).reverse

/-- The saved data of continuation `id`. -/
def contInfo (s : St σ) (id : Nat) : Option ContInfo := s.conts.find? fun c => c.id = id

/-- `scm_dynthrow` (src/c/continuation.cc:101-115). -/
def dynthrow (rec : Rec σ) (id : Nat) (v : V) : EM σ V := do
  let s ← getSt
  match contInfo s id with
  | Option.none => stop .ub
  | some ci => do
    switchWinds rec ci.winds
    let s' ← getSt
    if id ∈ s'.live then stop (.esc id v) else stop .unmod

/-! ## Builtins -/

/-! ### Macro expansion of one call -/

/-- The binding part of `expand_macro_call` (src/c/macro.cc:36-124): like `bindParams`, without evaluating. -/
def bindForms (pe : EnvId) : List V → Option Name → List V → EM σ Unit
  | [], some r, args => bindOwn pe r (listOf args)
  | [], Option.none, [] => pure ()
  | [], Option.none, _ :: _ => evalError "Wrong number of arguments"
  | _ :: _, Option.none, [] => evalError "Wrong number of arguments"
  | _ :: _, some _, [] => pure ()
  | .sym x :: ps, r, a :: as => do
    bindOwn pe x a
    bindForms pe ps r as
  | _ :: ps, r, _ :: _ => if ps.isEmpty && r.isSome then stop .abort else evalError "malformed parameter in lambda list"

/-- `expand_macro_call` (src/c/macro.cc:5-153). -/
def expandCall (rec : Rec σ) (params body : V) (menv : EnvId) (args : List V) : EM σ V := do
  let pe ← newEnv menv
  bindForms pe (splitParams params).1 (splitParams params).2 args
  evalSeq rec pe (nodes body)

/-- `scm_c_macroexpand_1` (src/c/macro.cc:352-385): the expansion, or `none` when the expression is not a macro call of the top-level
environment. -/
def macroexpand1 (rec : Rec σ) (ast : V) : EM σ (Option V) :=
  match ast with
  | .pair (.sym x) rest => do
    let s ← getSt
    match envSearch s 0 x with
    | some (.macro ps b me) => do
      let r ← expandCall rec ps b me (nodes rest)
      pure (some r)
    | _ => pure Option.none
  | _ => pure Option.none

/-- One round of the loop of `scm_c_macroexpand` (src/c/macro.cc:390-401).  The loop ends when the expansion is the expression itself, as an
object: always when it is not a macro call; an expansion that looks the same as its call may or may not be the same object (`unmod`). -/
def macroexpandLoop (rec : Rec σ) (ast : V) : EM σ V := do
  let r ← macroexpand1 rec ast
  match r with
  | Option.none => pure ast
  | some x => if x = ast then stop .unmod else rec (.mexpand x)

/-! ### Files and modules -/

/-- `scm_c_primitive_load_with_env` (src/c/load.cc:43-60) and, for `env = 0`, `scm_c_primitive_load` with
`scm_eval_expression_list` (6-34; `g_env` has no parent): the whole file is read first, then its expressions are evaluated in order, the
last value is the result.  `parse_file` answers the null pointer both when the file cannot be opened and when it holds no expression,
and both are errors.  The messages are simplified. -/
def loadFile (P : Prims σ) (rec : Rec σ) (env : EnvId) (path : String) : EM σ V := do
  let s ← getSt
  match P.file path s.ext with
  | .missing => evalError "primitive-load: failed to load file"
  | .malformed => evalError "Parse error"
  | .exprs [] => evalError "primitive-load: failed to load file"
  | .exprs (x :: xs) => evalSeq rec env (x :: xs)

/-- The components of a module name: a datum that is not a symbol contributes nothing (src/c/module.cc:245-249). -/
def pathParts : List V → List String
  | [] => []
  | .sym x :: xs => x :: pathParts xs
  | _ :: xs => "" :: pathParts xs

/-- `module_name_to_path` (src/c/module.cc:238-284): `(a b c)` is `a/b/c.scm`. -/
def modulePath (name : V) : String := "/".intercalate (pathParts (nodes name)) ++ ".scm"

/-- A directory of `%load-path` and a file (src/c/module.cc:347-364): a slash is put between unless the directory is empty or ends in one. -/
def inDir (dir file : String) : String :=
  if dir.toList = [] ∨ dir.toList.getLast? = some '/' then dir ++ file else dir ++ "/" ++ file

/-- The strings of `%load-path` (src/c/module.cc:329-346); it is read from the root module. -/
def loadDirs : List V → List String
  | [] => []
  | .str d :: xs => d :: loadDirs xs
  | _ :: xs => loadDirs xs

/-- The files tried for a module, in order: the directories of `%load-path` of the root module, then the current directory
(src/c/module.cc:329-389). -/
def candidates (s : St σ) (name : V) : List String :=
  (match obLookup s.mods s.root "%load-path" with
   | some (.pair a d) => (loadDirs (nodes (.pair a d))).map fun dir => inDir dir (modulePath name)
   | _ => []) ++ [modulePath name]

/-- `file_exists` (src/c/module.cc:287-294). -/
def fileExists (P : Prims σ) (x : σ) (path : String) : Bool := P.file path x != .missing

/-- `make_module_environment(mod, &g_env)` (src/c/pscm.h:209-216). -/
def newModEnv (m : Nat) : EM σ EnvId := fun s =>
  match s.frames[0]? with
  | some _ => some (.ok s.frames.length, { s with frames := s.frames ++ [⟨[], some 0, some m⟩] })
  | Option.none => some (.stop .ub, s)

/-- The registered module of that name, or a new one (src/c/module.cc:300-306, 394-399, 745-761). -/
def registerModule (name : V) : EM σ Nat := fun s =>
  match findByName s.mods name with
  | some m => some (.ok m, s)
  | Option.none => some (.ok s.mods.length, { s with mods := s.mods ++ [freshModule name] })

/-- `scm_resolve_module` (src/c/module.cc:297-446): a name that is not registered is registered as an empty module; if there is a file for
it, that file is loaded in an environment of the new module, which is the current module meanwhile.  The current module is put back when
the file has been loaded; nothing puts it back when loading is left by an error or a jump. -/
def resolveModule (P : Prims σ) (rec : Rec σ) (name : V) : EM σ Nat := do
  let s ← getSt
  let m ← registerModule name
  if (findByName s.mods name).isSome = true then pure m
  else
    match (candidates s name).find? (fileExists P s.ext) with
    | Option.none => pure m
    | some path => do
      let e ← newModEnv m
      modSt fun s => { s with cur := m }
      let _ ← loadFile P rec e path
      modSt fun s' => { s' with cur := s.cur }
      pure m

/-- The specs of `use-modules` (src/c/module.cc:847-881), imported into module `m`; what is not a list is skipped.  The names are also
printed on standard output (857), which is not modelled. -/
def useModules (P : Prims σ) (rec : Rec σ) (m : Nat) : List V → EM σ V
  | [] => pure .none
  | .pair a d :: xs => do
    let u ← resolveModule P rec (.pair a d)
    modSt fun s => { s with mods := useModule s.mods m u }
    useModules P rec m xs
  | _ :: xs => useModules P rec m xs

/-- An option of `define-module`: import a module, export a name; `#:autoload` is not modelled. -/
inductive ModOpt
  | use (name : V)
  | export (x : Name)
  | autoload
  deriving DecidableEq

/-- The scan over the options of `define-module` (src/c/module.cc:763-836).  Keywords are read as plain symbols (src/c/parse.cc:1222-1231), so after
`#:export` every symbol up to the next datum of another kind is exported, keywords included (`ex`).  `#:pure` and `#:no-backtrace` only set a mark that
nothing reads, and are skipped. -/
def modOpts : Bool → List V → List ModOpt
  | _, [] => []
  | true, .sym k :: xs => .export k :: modOpts true xs
  | false, .sym k :: xs =>
    if k = "use-module" then
      match xs with
      | [] => []
      | .pair a d :: ys => .use (.pair a d) :: modOpts false ys
      | _ :: ys => modOpts false ys
    else if k = "export" then modOpts true xs
    else if k = "autoload" then
      match xs with
      | [] => []
      | _ :: _ => [.autoload]
    else modOpts false xs
  | _, _ :: xs => modOpts false xs

/-- The effects of the options on module `m`, in order (src/c/module.cc:763-836). -/
def runOpts (P : Prims σ) (rec : Rec σ) (m : Nat) : List ModOpt → EM σ Unit
  | [] => pure ()
  | .use n :: os => do
    let u ← resolveModule P rec n
    modSt fun s => { s with mods := useModule s.mods m u }
    runOpts P rec m os
  | .export x :: os => do
    modSt fun s => { s with mods := exportSym s.mods s.root m x }
    runOpts P rec m os
  | .autoload :: _ => stop .unmod

/-- `eval_define_module` (src/c/module.cc:722-843). -/
def evalDefineModule (P : Prims σ) (rec : Rec σ) (rest : V) : EM σ V :=
  match rest with
  | .pair (.pair a d) opts => do
    let m ← registerModule (.pair a d)
    runOpts P rec m (modOpts false (nodes opts))
    modSt fun s => { s with cur := m }
    pure .none
  | _ => evalError "define-module: module name must be a list"

/-- `scm_c_defined` (src/c/eval.cc:937-962). -/
def isDefined (s : St σ) (x : Name) : Bool :=
  (lookChain s.frames 0 x).isSome || (searchModule s.mods s.root s.cur x).isSome

/-- Module builtins: `current-module`, `set-current-module`, `module-ref`, `module-bound?`, `module-use!`, `resolve-module`,
`module?`, `defined?` (src/c/module.cc:505-511, 560-568, 645-722, 1054-1109; src/c/eval.cc:937-962). -/
def modPrim (P : Prims σ) (rec : Rec σ) (name : Name) (args : List V) : EM σ V := do
  let s ← getSt
  match name, args with
  | "current-module", _ => pure (.modl s.cur)
  | "set-current-module", [.modl m] => do
    modSt fun s => { s with cur := m }
    pure (.modl s.cur)
  | "module-ref", .modl m :: .sym x :: dflt =>
    if x = "%module-public-interface" then pure (.modl (ifaceOf s.mods m))
    else match searchModule s.mods s.root m x with
      | some v => pure v
      | Option.none => match dflt with
        | d :: _ => pure d
        | [] => evalError "module-ref: symbol not found in module"
  | "module-bound?", [.modl m, .sym x] => pure (.bool (moduleBound s.mods s.root m x))
  | "module-use!", .modl m :: .modl u :: _ => do
    modSt fun s => { s with mods := useModule s.mods m u }
    pure .none
  | "module-use!", .modl m :: .pair a d :: _ => do
    let u ← resolveModule P rec (.pair a d)
    modSt fun s => { s with mods := useModule s.mods m u }
    pure .none
  | "resolve-module", [.pair a d] => do
    let m ← resolveModule P rec (.pair a d)
    pure (.modl m)
  | "module?", [.modl _] => pure (.bool true)
  | "module?", [_] => pure (.bool false)
  | "defined?", [.sym x] => pure (.bool (isDefined s x))
  | _, _ => evalError "module builtin: wrong argument"

/-- The names handled by `modPrim`. -/
def isModPrim (n : Name) : Bool :=
  n = "current-module" || n = "set-current-module" || n = "module-ref" || n = "module-bound?" || n = "module-use!" ||
  n = "resolve-module" || n = "module?" || n = "defined?"

/-- Builtins that are not modelled: module binders change how every variable is looked up, `module-map` visits an obarray in hash order,
`procedure-name` reads a name that procedures of the model do not carry. -/
def isUnmodelled (n : Name) : Bool := n = "set-module-binder!" || n = "module-map" || n = "procedure-name"

/-- Run what a builtin asks for. -/
def runPrim (rec : Rec σ) : PrimRes σ → EM σ V
  | .done (.ok v) x => fun s => some (.ok v, { s with ext := x })
  | .done (.raise k a) x => fun s => some (.stop (throwStop s k a), { s with ext := x })
  | .done .abort x => fun s => some (.stop .abort, { s with ext := x })
  | .done .ub x => fun s => some (.stop .ub, { s with ext := x })
  | .eval e x k => do
    modSt fun s => { s with ext := x }
    let v ← rec (.eval 0 e)
    let s ← getSt
    runPrim rec (k v s.ext)

/-- A builtin outside the evaluator. -/
def extPrim (P : Prims σ) (rec : Rec σ) (name : Name) (args : List V) : EM σ V := do
  let s ← getSt
  runPrim rec (P.call name args s.ext)

/-- Calling the C function of a builtin: the ones that need the interpreter are modelled here, the others are `P`. -/
def callPrim (P : Prims σ) (rec : Rec σ) (name : Name) (args : List V) : EM σ V :=
  if name = "values" then pure (listOf args)
  else if name = "force" then
    match args with
    | .promise id :: _ => force rec id
    | _ => typeError
  else if name = "catch" then catchPrim rec args
  else if name = "throw" then throwPrim args
  else if name = "eval" then
    match args with
    | x :: _ => rec (.eval 0 x)
    | [] => stop .ub
  else if name = "load" ∨ name = "primitive-load" then
    match args with
    | .str f :: _ => loadFile P rec 0 f
    | _ => evalError "primitive-load: expected string"
  else if name = "macroexpand-1" then
    match args with
    | x :: _ => do
      let r ← macroexpand1 rec x
      pure (r.getD x)
    | [] => stop .ub
  else if name = "macroexpand" then
    match args with
    | x :: _ => rec (.mexpand x)
    | [] => stop .ub
  else if isModPrim name = true then modPrim P rec name args
  else if isUnmodelled name = true then stop .unmod
  else extPrim P rec name args

/-- `reduce` (src/c/pscm.h:702-710) over a two-argument builtin. -/
def reducePrim (P : Prims σ) (rec : Rec σ) (name : Name) : V → List V → EM σ V
  | acc, [] => pure acc
  | acc, x :: xs => do
    let v ← callPrim P rec name [acc, x]
    reducePrim P rec name v xs

/-- `apply`, `map` and `map-in-order` cannot be called as plain builtins (src/c/function.cc:86-100). -/
def isEvalOnly (n : Name) : Bool := n = "apply" || n = "map" || n = "map-in-order"

/-- `eval_with_func` (src/c/function.cc:29-109): fixed arities 0-3 are checked, -1 folds, -2 takes all. -/
def callFunc (P : Prims σ) (rec : Rec σ) (name : Name) (arity : Int) (args : List V) : EM σ V :=
  if arity = 0 ∨ arity = 1 ∨ arity = 2 ∨ arity = 3 then
    if (args.length : Int) = arity then callPrim P rec name args else wrongArgs (.func name arity)
  else if arity = -1 then reducePrim P rec name (P.init name) args
  else if arity = -2 then
    if isEvalOnly name = true then evalError "internal error - should be handled as special form"
    else if name = "call/cc" ∨ name = "call-with-current-continuation" then
      evalError "internal error - should be handled as special form"
    else callPrim P rec name args
  else evalError "not supported function"

/-! ## Definitions -/

/-- `eval_lambda` (src/c/eval.cc:122-156); `rest` is `l->next`. -/
def evalLambda (env : EnvId) (rest : V) : EM σ V :=
  match uncons rest with
  | Option.none => stop .ub
  | some (params, body) =>
    match params with
    | .sym _ => pure (.proc params (mkBody body) env)
    | .pair _ _ => pure (.proc params (mkBody body) env)
    | .nil => pure (.proc params (mkBody body) env)
    | _ => typeError

/-- `(lambda args . body)` -/
def lambdaExpr (args body : V) : V := .pair (.sym "lambda") (.pair args body)

/-- The currying loop of `eval_define` (src/c/define.cc:66-104): name, parameters and body of the outermost lambda. -/
def curry : V → V → Option (Name × V × V)
  | .pair (.sym f) args, body => some (f, args, body)
  | .pair k args, body => curry k (.pair (lambdaExpr args body) .nil)
  | _, _ => Option.none

/-- `eval_define` (src/c/define.cc:4-173). -/
def evalDefine (rec : Rec σ) (env : EnvId) (rest : V) : EM σ V :=
  match uncons rest with
  | Option.none => stop .ub
  | some (.sym x, more) =>
    match uncons more with
    | Option.none => evalError "define: missing value"
    | some (e, _) => do
      let v ← rec (.eval env e)
      modSt fun s => defineSt s env x v
      pure .none
  | some (.nil, _) => stop .ub
  | some (key, body) =>
    match curry key body with
    | Option.none => evalError "not supported define form"
    | some (f, args, b) => do
      let v ← evalLambda env (.pair args b)
      modSt fun s => defineProcSt s f v
      pure .none

/-- `set!` (src/c/eval.cc:68-120). -/
def evalSet (rec : Rec σ) (env : EnvId) (rest : V) : EM σ V :=
  match uncons rest with
  | some (.sym x, more) =>
    match uncons more with
    | Option.none => stop .ub
    | some (e, _) => do
      let v ← rec (.eval env e)
      modSt fun s => assignSt s env x v
      pure .none
  | _ => stop .abort

/-- The transformer parameters stored by `(define-macro (name . args) ...)` (src/c/macro.cc:286-295): a parameter list of exactly one
symbol is turned into a rest parameter. -/
def macroParams : V → V
  | .pair (.sym x) .nil => .sym x
  | ps => ps

/-- `eval_define_macro` (src/c/macro.cc:226-325). -/
def evalDefineMacro (rec : Rec σ) (env : EnvId) (rest : V) : EM σ V :=
  match uncons rest with
  | Option.none => evalError "define-macro: missing arguments"
  | some (.sym x, more) =>
    match uncons more with
    | Option.none => evalError "define-macro: missing transformer"
    | some (e, _) => do
      let v ← rec (.eval env e)
      match v with
      | .proc ps b _ => do
        modSt fun s => defineMacroSt s env x (.macro ps b env)
        pure .none
      | _ => evalError "define-macro: transformer must be a procedure"
  | some (.pair (.sym x) args, body) => do
    modSt fun s => defineMacroSt s env x (.macro (macroParams args) (mkBody body) env)
    pure .none
  | some _ => evalError "define-macro: invalid macro definition"

/-! ## Macro expansion -/

/-- The element loop of `expand_macros` (src/c/macro.cc:186-213). -/
def expandElems (rec : Rec σ) (env : EnvId) : V → EM σ V
  | .pair a d => do
    let a' ← rec (.expand env a)
    let d' ← expandElems rec env d
    pure (.pair a' d')
  | .nil => pure .nil
  | x => rec (.expand env x)

/-- `expand_macros` (src/c/macro.cc:156-223): macros of the own frame only; every sublist is visited, quoted or not. -/
def expandMacros (rec : Rec σ) (env : EnvId) (ast : V) : EM σ V :=
  match ast with
  | .pair (.sym x) rest => do
    let s ← getSt
    match lookOwn s.frames env x with
    | some (.macro ps b me) => do
      let r ← expandCall rec ps b me (nodes rest)
      rec (.expand env r)
    | _ => expandElems rec env ast
  | .pair _ _ => expandElems rec env ast
  | _ => pure ast

/-- Is the head one of the kinds that are evaluated even in a one-element list (src/c/eval.cc:349)? -/
def callableHead : V → Bool
  | .sym _ => true
  | .proc _ _ _ => true
  | .func _ _ => true
  | .cont _ => true
  | .pair _ _ => true
  | _ => false

/-- A macro call (src/c/eval.cc:333-355, 706-719): expand, expand the macros in the result, and evaluate it -- unless it is not a
list, in which case it is returned as it is. -/
def macroCall (rec : Rec σ) (env : EnvId) (ps b : V) (me : EnvId) (rest : V) : EM σ V := do
  let r ← expandCall rec ps b me (nodes rest)
  let ast ← rec (.expand env r)
  match ast with
  | .pair h t => if !callableHead h && t == .nil then pure h else rec (.eval env ast)
  | x => pure x

/-! ## let, let*, letrec -/

/-- The loop over the bindings of `let` (src/c/let.cc:184-204): names and initialisers; `none` is a failed `assert`. -/
def letBindings : List V → Option (List V × List V)
  | [] => some ([], [])
  | .pair x (.pair e _) :: bs =>
    match letBindings bs with
    | some (xs, es) => some (x :: xs, e :: es)
    | Option.none => Option.none
  | _ => Option.none

/-- `__temp_<i>` (src/c/let.cc:128-131). -/
def tempName (i : Nat) : Name := "__temp_" ++ toString i

/-- `(__temp_i e_i) ...` -/
def tempBindings : Nat → List V → List V
  | _, [] => []
  | i, e :: es => listOf [.sym (tempName i), e] :: tempBindings (i + 1) es

/-- `__temp_i ...` -/
def tempSyms : Nat → List V → List V
  | _, [] => []
  | i, _ :: es => .sym (tempName i) :: tempSyms (i + 1) es

/-- `expand_let` (src/c/let.cc:4-219); `rest` is `l->next`.  A named `let` takes its body from `l->next->next->next->data`. -/
def expandLet (rest : V) : EM σ V :=
  match rest with
  | .pair .nil body =>
    if body = .nil then stop .abort else pure (.pair (lambdaExpr .nil body) .nil)
  | .pair (.sym name) more =>
    match more with
    | .pair bindings (.pair body _) =>
      match bindings with
      | .nil =>
        pure (listOf [.sym "letrec", listOf [listOf [.sym name, listOf [.sym "lambda", .nil, body]]], listOf [.sym name]])
      | .pair _ _ =>
        match letBindings (nodes bindings) with
        | Option.none => stop .abort
        | some (xs, es) =>
          pure (listOf [.sym "let", listOf (tempBindings 0 es),
            listOf [.sym "letrec", listOf [listOf [.sym name, listOf [.sym "lambda", listOf xs, body]]],
              .pair (.sym name) (listOf (tempSyms 0 es))]])
      | _ => evalError "let: bindings must be a list"
    | _ => stop .abort
  | .pair bindings body =>
    if body = .nil then stop .abort
    else match bindings with
      | .pair _ _ =>
        match letBindings (nodes bindings) with
        | Option.none => stop .abort
        | some (xs, es) => pure (.pair (lambdaExpr (listOf xs) body) (listOf es))
      | _ => stop .abort
  | _ => stop .abort

/-- `expand_letstar` (src/c/let.cc:247-330). -/
def expandLetStar (rest : V) : EM σ V :=
  match rest with
  | .pair bindings body =>
    if body = .nil then stop .abort
    else match bindings with
      | .nil => pure (.pair (lambdaExpr .nil body) .nil)
      | .pair b .nil => pure (.pair (.sym "let") (.pair (.pair b .nil) body))
      | .pair b bs =>
        pure (listOf [.sym "let", listOf [b], .pair (.sym "let*") (.pair bs body)])
      | _ => evalError "let*: bindings must be a list"
  | _ => stop .abort

/-- The loop of `expand_letrec` (src/c/let.cc:377-398): `(x #f)` and `(set! x e)` for each binding. -/
def letrecParts : List V → List V → List V × List V
  | x :: xs, e :: es =>
    (listOf [x, .bool false] :: (letrecParts xs es).1, listOf [.sym "set!", x, e] :: (letrecParts xs es).2)
  | _, _ => ([], [])

/-- `expand_letrec` (src/c/let.cc:355-437). -/
def expandLetrec (rest : V) : EM σ V :=
  match rest with
  | .pair bindings body =>
    if body = .nil then stop .abort
    else match bindings with
      | .nil => pure (.pair (lambdaExpr .nil body) .nil)
      | .pair _ _ =>
        match letBindings (nodes bindings) with
        | Option.none => stop .abort
        | some (xs, es) =>
          pure (.pair (.sym "let") (.pair (listOf (letrecParts xs es).1) (listOf ((letrecParts xs es).2 ++ nodes body))))
      | _ => stop .abort
  | _ => stop .abort

/-! ## Conditionals -/

/-- `eval_if` (src/c/eval.cc:169-182). -/
def evalIf (rec : Rec σ) (env : EnvId) (args : List V) : EM σ V :=
  match args with
  | [] => stop .abort
  | c :: branches => do
    let v ← rec (.eval env c)
    if truthy v = true then
      match branches with
      | a :: _ => rec (.eval env a)
      | [] => stop .ub
    else
      match branches with
      | _ :: b :: _ => rec (.eval env b)
      | [_] => pure .none
      | [] => stop .ub

/-- `eval_and` (src/c/eval.cc:185-208). -/
def evalAnd (rec : Rec σ) (env : EnvId) : List V → EM σ V
  | [] => pure (.bool true)
  | [x] => rec (.eval env x)
  | x :: xs => do
    let v ← rec (.eval env x)
    if truthy v = true then evalAnd rec env xs else pure (.bool false)

/-- `eval_or` (src/c/eval.cc:211-234). -/
def evalOr (rec : Rec σ) (env : EnvId) : List V → EM σ V
  | [] => pure (.bool false)
  | [x] => rec (.eval env x)
  | x :: xs => do
    let v ← rec (.eval env x)
    if truthy v = true then pure v else evalOr rec env xs

/-- The `=>` part of a `cond` clause (src/c/cond.cc:37-60). -/
def condArrow (rec : Rec σ) (env : EnvId) (pred : V) (more : V) : EM σ V :=
  match uncons more with
  | Option.none => stop .abort
  | some (fe, _) => do
    let f ← rec (.eval env fe)
    match f with
    | .sym x => do
      let s ← getSt
      match lookOwn s.frames env x with
      | some p => rec (.eval env (listOf [p, quoted pred]))
      | Option.none => pure f
    | _ => rec (.eval env (listOf [f, quoted pred]))

/-- `eval_cond` (src/c/cond.cc:11-70). -/
def evalCond (rec : Rec σ) (env : EnvId) : List V → EM σ V
  | [] => pure .none
  | .pair test body :: cs =>
    if test = .sym "else" then evalSeq rec env (nodes body)
    else do
      let v ← rec (.eval env test)
      if truthy v = true then
        match uncons body with
        | Option.none => pure (.bool true)
        | some (hd, more) =>
          if hd = .sym "=>" then do
            let s ← getSt
            if (lookOwn s.frames env "=>").isNone = true then condArrow rec env v more
            else evalSeq rec env (nodes body)
          else evalSeq rec env (nodes body)
      else evalCond rec env cs
  | .nil :: _ => stop .ub
  | _ :: _ => typeError

/-- Result of comparing by `_eq`. -/
inductive EqRes
  | yes | no
  | error
  | unmod
  deriving DecidableEq

/-- `_eq` (src/c/eq.cc:152-250) on trees, by fuel-free recursion on the first list; dots are ignored as in `_list_eq`
(src/c/eq.cc:91-105).  Comparison of floats is not modelled here (see `Verif.Num`); procedures are compared by
address, and a literal in the program text is never the same object; `_eq` on other types of objects is an error. -/
def legacyEq : V → V → EqRes
  | .nil, .nil => .yes
  | .none, .none => .yes
  | .bool a, .bool b => if a = b then .yes else .no
  | .num a, .num b => if a = b then .yes else .no
  | .chr a, .chr b => if a = b then .yes else .no
  | .sym a, .sym b => if a = b then .yes else .no
  | .str a, .str b => if a = b then .yes else .no
  | .pair a d, .pair b e =>
    match legacyEq a b with
    | .yes => legacyTail d e
    | r => r
  | .flo _, .flo _ => .unmod
  | .flo _, .num _ => .unmod
  | .num _, .flo _ => .unmod
  | .vec a, .vec b => legacyTail a b
  | .promise _, .promise _ => .error
  | .modl _, .modl _ => .error
  | .other _, .other _ => .error
  | _, _ => .no
where
  /-- the rest of two node chains -/
  legacyTail : V → V → EqRes
  | .nil, .nil => .yes
  | .nil, _ => .no
  | _, .nil => .no
  | .pair a d, .pair b e =>
    match legacyEq a b with
    | .yes => legacyTail d e
    | r => r
  | .pair a d, y =>
    match legacyEq a y with
    | .yes => if d = .nil then .yes else .no
    | r => r
  | x, .pair b e =>
    match legacyEq x b with
    | .yes => if e = .nil then .yes else .no
    | r => r
  | x, y => legacyEq x y

/-- `value_in_datums` (src/c/case.cc:9-22). -/
def inDatums (key : V) : List V → EqRes
  | [] => .no
  | d :: ds =>
    match legacyEq key d with
    | .yes => .yes
    | .no => inDatums key ds
    | r => r

/-- The clause loop of `eval_case` (src/c/case.cc:38-68). -/
def caseClauses (rec : Rec σ) (env : EnvId) (key : V) : List V → EM σ V
  | [] => pure (.bool false)
  | .pair ds body :: cs =>
    if ds = .sym "else" then evalSeq rec env (nodes body)
    else if isList ds = true then
      match inDatums key (nodes ds) with
      | .yes => evalSeq rec env (nodes body)
      | .no => caseClauses rec env key cs
      | .error => evalError "eq: unsupported type"
      | .unmod => stop .unmod
    else typeError
  | .nil :: _ => stop .ub
  | _ :: _ => typeError

/-- `eval_case` (src/c/case.cc:26-68). -/
def evalCase (rec : Rec σ) (env : EnvId) (args : List V) : EM σ V :=
  match args with
  | [] => stop .abort
  | k :: cs => do
    let key ← rec (.eval env k)
    caseClauses rec env key cs

/-! ## do, map, for-each, apply, values -/

/-- The initialisation loop of `eval_do` (src/c/do.cc:115-157): initialisers are evaluated in `env`, bound in `de` with the
*default* `scm_env_insert`, which updates an existing binding of an enclosing frame. -/
def doInit (rec : Rec σ) (env de : EnvId) : List V → EM σ (List (Name × V))
  | [] => pure []
  | .pair (.sym x) more :: bs =>
    match uncons more with
    | Option.none => evalError "do: variable binding must have an initial value"
    | some (e, more') => do
      let v ← rec (.eval env e)
      bindDeep de x v
      let rest ← doInit rec env de bs
      match uncons more' with
      | some (st, _) => pure ((x, st) :: rest)
      | Option.none => pure rest
  | _ => evalError "do: variable initialization must be a list"

/-- First pass of `update_do_variables` (src/c/do.cc:34-75). -/
def doSteps (rec : Rec σ) (de : EnvId) : List (Name × V) → EM σ (List (Name × V))
  | [] => pure []
  | (x, st) :: xs => do
    let v ← rec (.eval de st)
    let vs ← doSteps rec de xs
    pure ((x, v) :: vs)

/-- Second pass (src/c/do.cc:80-82). -/
def doUpdate (de : EnvId) : List (Name × V) → EM σ Unit
  | [] => pure ()
  | (x, v) :: xs => do
    bindDeep de x v
    doUpdate de xs

/-- The loop of `eval_do` (src/c/do.cc:169-239). -/
def doLoop (rec : Rec σ) (de : EnvId) (test res body : V) (steps : List (Name × V)) : EM σ V := do
  let v ← rec (.eval de test)
  match v with
  | .bool false => do
    let _ ← evalArgs rec de (nodes body)
    let vs ← doSteps rec de steps
    doUpdate de vs
    rec (.doLoop de test res body steps)
  | .bool true =>
    if res = .nil then pure .none
    else if isPair res = true then evalSeq rec de (nodes res)
    else typeError
  | _ => typeError

/-- `eval_do` (src/c/do.cc:88-240). -/
def evalDo (rec : Rec σ) (env : EnvId) (rest : V) : EM σ V :=
  match rest with
  | .pair vars (.pair tc body) =>
    if isList vars = true then do
      let de ← newEnv env
      let steps ← doInit rec env de (nodes vars)
      match tc with
      | .pair test res => rec (.doLoop de test res body steps)
      | .nil => evalError "do: test clause must be a list"
      | _ => typeError
    else typeError
  | _ => stop .abort

/-- The i-th elements of all lists, for i below the shortest length: the tuples that the loop of `eval_map`
(src/c/map.cc:71-127) hands to the procedure. -/
def rows : List (List V) → List (List V)
  | [] => []
  | [l] => l.map fun x => [x]
  | l :: ls => List.zipWith (fun x r => x :: r) l (rows ls)

/-- One call of the mapped procedure (src/c/map.cc:86-110). -/
def applyQuoted (P : Prims σ) (rec : Rec σ) (env : EnvId) (f : V) (row : List V) : EM σ V :=
  match f with
  | .proc ps b pe => applyProc rec env ps b pe (row.map quoted)
  | .func n a => do
    let vs ← evalArgs rec env (row.map quoted)
    callFunc P rec n a vs
  | _ => evalError "map: first argument must be a procedure"

/-- The loop of `eval_map`. -/
def mapRows (P : Prims σ) (rec : Rec σ) (env : EnvId) (f : V) : List (List V) → EM σ (List V)
  | [] => pure []
  | r :: rs => do
    let v ← applyQuoted P rec env f r
    let vs ← mapRows P rec env f rs
    pure (v :: vs)

/-- Evaluate list arguments (src/c/map.cc:55-66): each must be a list. -/
def evalLists (rec : Rec σ) (env : EnvId) : List V → EM σ (List (List V))
  | [] => pure []
  | x :: xs => do
    let v ← rec (.eval env x)
    if isList v = true then do
      let vs ← evalLists rec env xs
      pure (nodes v :: vs)
    else evalError "map: list arguments must be lists"

/-- `eval_map` (src/c/map.cc:28-135). -/
def evalMap (P : Prims σ) (rec : Rec σ) (env : EnvId) (args : List V) : EM σ V :=
  match args with
  | fe :: l :: ls => do
    let f ← rec (.eval env fe)
    if isApplicable f = true then do
      let cols ← evalLists rec env (l :: ls)
      let vs ← mapRows P rec env f (rows cols)
      pure (listOf vs)
    else evalError "map: first argument must be a procedure"
  | _ => evalError "map: requires at least 2 arguments"

/-- `is_list_exhausted` (src/c/for_each.cc:15-17): no more nodes, *or the next element is the empty list*. -/
def exhausted : List V → Bool
  | [] => true
  | x :: _ => x == .nil

/-- The loop of `eval_for_each` (src/c/for_each.cc:86-146); it runs at most once per element of the first list, `n` is its length plus one. -/
def forEachLoop (rec : Rec σ) (env : EnvId) (f : V) : Nat → List (List V) → EM σ V
  | 0, _ => stop .unmod
  | n + 1, cols =>
    if cols.all exhausted = true then pure .none
    else if cols.any exhausted = true then evalError "for-each: lists must have the same length"
    else do
      let _ ← rec (.eval env (.pair f (listOf (cols.map fun c => quoted (c.headD .nil)))))
      forEachLoop rec env f n (cols.map List.tail)

/-- The argument count of `for-each` (src/c/for_each.cc:39-53): the number of nodes of the parameter list of a procedure. -/
def forEachCount (f : V) (lists : List V) : Option Nat :=
  match f with
  | .proc ps _ _ => some (nodes ps).length
  | .func _ a => some (if a < 0 then lists.length else a.toNat)
  | _ => Option.none

/-- The first `k` list arguments are evaluated (src/c/for_each.cc:68-82). -/
def forEachArgs (rec : Rec σ) (env : EnvId) : Nat → List V → EM σ (List (List V))
  | 0, _ => pure []
  | _ + 1, [] => evalError "args count not match"
  | k + 1, x :: xs => do
    let v ← rec (.eval env x)
    if isList v = true then do
      let vs ← forEachArgs rec env k xs
      pure (nodes v :: vs)
    else evalError "for-each: argument must be a list"

/-- `eval_for_each` (src/c/for_each.cc:32-149). -/
def evalForEach (rec : Rec σ) (env : EnvId) (args : List V) : EM σ V :=
  match args with
  | [] => stop .abort
  | fe :: ls => do
    let f ← rec (.eval env fe)
    match forEachCount f ls with
    | Option.none => evalError "for-each: first argument must be a procedure or function"
    | some k =>
      if k > 10 then evalError "for-each: too many arguments"
      else do
        let cols ← forEachArgs rec env k ls
        forEachLoop rec env f ((cols.headD []).length + 1) cols

/-- Call of `call/cc` on an already evaluated procedure (src/c/eval.cc:633-662, src/c/apply.cc:360-394). -/
def callCC (P : Prims σ) (rec : Rec σ) (env : EnvId) (f : V) : EM σ V :=
  match f with
  | .proc ps b pe => withCont fun k => applyProc rec env ps b pe [k]
  | .func n a => withCont fun k => do
    let vs ← evalArgs rec env [k]
    callFunc P rec n a vs
  | _ => evalError "call-with-current-continuation: argument must be a procedure"

/-- Is this the name of `call/cc`? -/
def isCallCC (n : Name) : Bool := n = "call/cc" || n = "call-with-current-continuation"

/-- The last step of `eval_apply` (src/c/apply.cc:336-402): `combined` holds the leading argument *values* and the quoted elements of the last
argument, and is evaluated (again). -/
def applyTo (P : Prims σ) (rec : Rec σ) (env : EnvId) (f : V) (combined : List V) : EM σ V :=
  match f with
  | .proc ps b pe => applyProc rec env ps b pe combined
  | .func n a =>
    if n = "apply" ∨ n = "map" then rec (.eval env (.pair f (listOf combined)))
    else if isCallCC n = true then
      match combined with
      | [] => evalError "call-with-current-continuation: requires 1 argument"
      | x :: _ => do
        let g ← rec (.eval env x)
        callCC P rec env g
    else do
      let vs ← evalArgs rec env combined
      callFunc P rec n a vs
  | _ => evalError "apply: first argument must be a procedure"

/-- `eval_apply` (src/c/apply.cc:168-403): the last argument is evaluated first, then the leading ones. -/
def evalApply (P : Prims σ) (rec : Rec σ) (env : EnvId) (args : List V) : EM σ V :=
  match args with
  | [] => evalError "apply: requires at least 2 arguments"
  | fe :: as => do
    let f ← rec (.eval env fe)
    match f with
    | .cont id =>
      match as with
      | [] => evalError "apply: requires at least 2 arguments"
      | [x] => do
        let v ← rec (.eval env x)
        if isList v = true then dynthrow rec id v else evalError "apply: last argument must be a list"
      | _ => do
        let v ← rec (.eval env (as.getLastD .nil))
        if isList v = true then do
          let lead ← evalArgs rec env as.dropLast
          dynthrow rec id (listOf (lead ++ nodes v))
        else evalError "apply: last argument must be a list"
    | _ =>
      if isApplicable f = true then
        match as with
        | [] => evalError "apply: requires at least 2 arguments"
        | _ => do
          let v ← rec (.eval env (as.getLastD .nil))
          if isList v = true then do
            let lead ← evalArgs rec env as.dropLast
            applyTo P rec env f (lead ++ (nodes v).map quoted)
          else evalError "apply: last argument must be a list"
      else evalError "apply: first argument must be a procedure"

/-- The values delivered by a producer's result (src/c/values.cc:57-67): a non-empty list is spread, the empty list is no value. -/
def spread : V → List V
  | .pair a d => nodes (.pair a d)
  | .nil => []
  | v => [v]

/-- `eval_call_with_values` (src/c/values.cc:29-88). -/
def evalCallWithValues (P : Prims σ) (rec : Rec σ) (env : EnvId) (args : List V) : EM σ V :=
  match args with
  | pe :: ce :: _ => do
    let producer ← rec (.eval env pe)
    let r ← (match producer with
      | .proc ps b e => applyProc rec env ps b e []
      | .func n a => callFunc P rec n a []
      | _ => evalError "call-with-values: first argument must be a procedure")
    let consumer ← rec (.eval env ce)
    match consumer with
    | .proc ps b e => applyProcV rec ps b e (spread r)
    | .func n a => callFunc P rec n a (spread r)
    | _ => evalError "call-with-values: second argument must be a procedure"
  | _ => evalError "call-with-values: requires 2 arguments"

/-- `eval_dynamic_wind` (src/c/dynwind.cc:170-219). -/
def evalDynamicWind (rec : Rec σ) (env : EnvId) (args : List V) : EM σ V :=
  match args with
  | ie :: te :: oe :: _ => do
    let i ← rec (.eval env ie)
    let t ← rec (.eval env te)
    let o ← rec (.eval env oe)
    match i, t, o with
    | .proc ip ib ien, .proc tp tb ten, .proc op ob oen => do
      let _ ← applyProc rec env ip ib ien []
      let s ← getSt
      modSt fun s => { s with next := s.next + 1, winds := ⟨s.next, i, o⟩ :: s.winds }
      let r ← applyProc rec env tp tb ten []
      modSt fun s' => { s' with winds := s.winds }
      let _ ← applyProc rec env op ob oen []
      pure r
    | _, _, _ => evalError "dynamic-wind: all arguments must be procedures"
  | _ => stop .abort

/-! ## Quasiquotation -/

/-- Elements followed by a tail. -/
def listTail : List V → V → V
  | [], t => t
  | x :: xs, t => .pair x (listTail xs t)

/-- `append_two_lists` (src/c/quasiquote.cc:86-189) on trees: the dotted tail of the first list becomes an element. -/
def appendTwo (l1 l2 : V) : V :=
  if l1 = .nil then l2 else if l2 = .nil then l1 else listTail (nodes l1) l2

/-- `scm_c_list_to_vector` (src/c/vector.cc) applied to the expansion of a vector template. -/
def listToVec (l : V) : EM σ V :=
  if isList l = true then pure (.vec (listOf (nodes l))) else evalError "list->vector: expected list"

/-- Merge of a spliced list with the expansion of what follows it (src/c/quasiquote.cc:236-296). -/
def spliceMerge (lv r : V) : V := appendTwo lv r

/-- `quasi` (src/c/quasiquote.cc:193-366). -/
def quasi (rec : Rec σ) (env : EnvId) : V → Nat → EM σ V
  | .pair (.sym x) d, depth =>
    if x = "unquote" then
      match d with
      | .nil => pure .none
      | .pair arg _ =>
        if depth = 1 then rec (.eval env arg)
        else do
          let v ← quasi rec env arg (depth - 1)
          pure (listOf [.sym "unquote", v])
      | arg =>
        if depth = 1 then rec (.eval env arg)
        else do
          let v ← quasi rec env arg (depth - 1)
          pure (listOf [.sym "unquote", v])
    else if x = "quasiquote" then
      match d with
      | .nil => evalError "quasiquote requires an argument"
      | .pair arg _ => do
        let v ← quasi rec env arg (depth + 1)
        pure (listOf [.sym "quasiquote", v])
      | arg => do
        let v ← quasi rec env arg (depth + 1)
        pure (listOf [.sym "quasiquote", v])
    else do
      let cd ← quasi rec env d depth
      pure (.pair (.sym x) cd)
  | .pair (.pair h t) d, depth =>
    if h = .sym "unquote-splicing" then
      match uncons t with
      | Option.none => evalError "unquote-splicing requires an argument"
      | some (arg, _) =>
        if depth = 1 then do
          let lv ← rec (.eval env arg)
          if isList lv = true then do
            let r ← quasi rec env d depth
            pure (spliceMerge lv r)
          else evalError "unquote-splicing requires a list"
        else do
          let ca ← quasi rec env (.pair h t) (depth - 1)
          let cd ← quasi rec env d depth
          if isList d = true then pure (.pair ca cd) else pure (listOf [ca, cd])
    else do
      let ca ← quasi rec env (.pair h t) depth
      let cd ← quasi rec env d depth
      pure (.pair ca cd)
  | .pair a d, depth => do
    let ca ← quasi rec env a depth
    let cd ← quasi rec env d depth
    pure (.pair ca cd)
  | .vec els, depth => do
    let l ← quasi rec env els depth
    listToVec l
  | p, _ => pure p

/-! ## Dispatch -/

/-- The special forms, by name (src/c/eval.cc:357-504). -/
inductive Form
  | define | defineMacro | defineModule | useModules | export | definePublic
  | let_ | letStar | letrec | callcc | lambda | set | quote | quasiquote | if_ | and | or | delay | cond | case
  | begin | forEach | do_ | map | apply | callWithValues | dynamicWind
  deriving DecidableEq

def formOf (x : Name) : Option Form :=
  if x = "define" then some .define
  else if x = "define-macro" then some .defineMacro
  else if x = "define-module" then some .defineModule
  else if x = "use-modules" then some .useModules
  else if x = "export" then some .export
  else if x = "re-export" then some .export
  else if x = "define-public" then some .definePublic
  else if x = "let" then some .let_
  else if x = "let*" then some .letStar
  else if x = "letrec" then some .letrec
  else if x = "call/cc" then some .callcc
  else if x = "call-with-current-continuation" then some .callcc
  else if x = "lambda" then some .lambda
  else if x = "set!" then some .set
  else if x = "quote" then some .quote
  else if x = "quasiquote" then some .quasiquote
  else if x = "if" then some .if_
  else if x = "and" then some .and
  else if x = "or" then some .or
  else if x = "delay" then some .delay
  else if x = "cond" then some .cond
  else if x = "case" then some .case
  else if x = "begin" then some .begin
  else if x = "for-each" then some .forEach
  else if x = "do" then some .do_
  else if x = "map" then some .map
  else if x = "map-in-order" then some .map
  else if x = "apply" then some .apply
  else if x = "call-with-values" then some .callWithValues
  else if x = "dynamic-wind" then some .dynamicWind
  else Option.none

/-- `begin` (src/c/eval.cc:456-474). -/
def evalBegin (rec : Rec σ) (env : EnvId) (args : List V) : EM σ V :=
  match args with
  | [] => pure (.bool false)
  | xs => evalSeq rec env xs

/-- `eval_call_cc` (src/c/eval.cc:237-259). -/
def evalCallCC (rec : Rec σ) (env : EnvId) (args : List V) : EM σ V :=
  match args with
  | [] => stop .abort
  | fe :: _ => do
    let f ← rec (.eval env fe)
    withCont fun k => rec (.eval env (listOf [f, k]))

/-- The exported name of a `define-public` (src/c/module.cc:936-951). -/
def publicName : V → Option Name
  | .pair (.sym x) _ => some x
  | .pair (.pair (.sym x) _) _ => some x
  | .sym x => some x
  | _ => Option.none

/-- The special forms (src/c/eval.cc:357-504); `rest` is `l->next`. -/
def evalForm (P : Prims σ) (rec : Rec σ) (f : Form) (env : EnvId) (rest : V) : EM σ V :=
  match f with
  | .define => evalDefine rec env rest
  | .defineMacro => evalDefineMacro rec env rest
  | .defineModule => evalDefineModule P rec rest
  | .useModules => do
    let s ← getSt
    useModules P rec s.cur (nodes rest)
  | .export => do
    modSt fun s => { s with mods := exportAll s.mods s.root s.cur (nodes rest) }
    pure .none
  | .definePublic => do
    let v ← evalDefine rec env rest
    match publicName rest with
    | some x => do
      modSt fun s => { s with mods := exportSym s.mods s.root s.cur x }
      pure v
    | Option.none => pure v
  | .let_ => do
    let ast ← expandLet rest
    rec (.eval env ast)
  | .letStar => do
    let ast ← expandLetStar rest
    rec (.eval env ast)
  | .letrec => do
    let ast ← expandLetrec rest
    rec (.eval env ast)
  | .callcc => evalCallCC rec env (nodes rest)
  | .lambda => evalLambda env rest
  | .set => evalSet rec env rest
  | .quote =>
    match uncons rest with
    | some (x, _) => pure x
    | Option.none => pure .nil
  | .quasiquote =>
    match uncons rest with
    | some (x, _) => quasi rec env x 1
    | Option.none => evalError "quasiquote: missing argument"
  | .if_ => evalIf rec env (nodes rest)
  | .and => evalAnd rec env (nodes rest)
  | .or => evalOr rec env (nodes rest)
  | .delay => evalDelay env rest
  | .cond => if rest = .nil then stop .abort else evalCond rec env (nodes rest)
  | .case => evalCase rec env (nodes rest)
  | .begin => evalBegin rec env (nodes rest)
  | .forEach => evalForEach rec env (nodes rest)
  | .do_ => evalDo rec env rest
  | .map => evalMap P rec env (nodes rest)
  | .apply => evalApply P rec env (nodes rest)
  | .callWithValues => evalCallWithValues P rec env (nodes rest)
  | .dynamicWind => evalDynamicWind rec env (nodes rest)

/-- A builtin object in operator position (src/c/eval.cc:604-689).  `call/cc` as an object takes its operand unevaluated. -/
def evalFuncCall (P : Prims σ) (rec : Rec σ) (env : EnvId) (n : Name) (a : Int) (rest : V) : EM σ V :=
  if n = "apply" then evalApply P rec env (nodes rest)
  else if n = "map" ∨ n = "map-in-order" then evalMap P rec env (nodes rest)
  else if isCallCC n = true then
    match uncons rest with
    | Option.none => evalError "call-with-current-continuation: requires 1 argument"
    | some (f, _) => callCC P rec env f
  else do
    let vs ← evalArgs rec env (nodes rest)
    callFunc P rec n a vs

/-- Does the name start with a colon (a keyword, src/c/eval.cc:278-281)? -/
def isKeyword (x : Name) : Bool := x.toList.head? == some ':'

/-- A list in evaluation (src/c/eval.cc:286-925). -/
def evalPair (P : Prims σ) (rec : Rec σ) (env : EnvId) (h rest : V) : EM σ V :=
  match h with
  | .sym x => do
    let s ← getSt
    match opValue s env x with
    | some (.macro ps b me) => macroCall rec env ps b me rest
    | val =>
      match formOf x with
      | some f => evalForm P rec f env rest
      | Option.none => do
        let v ← (match val with
          | some v => pure v
          | Option.none => lookupSymbol env x)
        rec (.eval env (.pair v rest))
  | .cont id => do
    let v ← (match uncons rest with
      | some (x, _) => rec (.eval env x)
      | Option.none => pure .nil)
    dynthrow rec id v
  | .proc ps b pe => applyProc rec env ps b pe (nodes rest)
  | .func n a => evalFuncCall P rec env n a rest
  | .pair _ _ => do
    let f ← rec (.eval env h)
    rec (.eval env (.pair f rest))
  | .macro ps b me => macroCall rec env ps b me rest
  | .num _ => if rest = .nil then pure h else evalError "invalid expression"
  | .flo _ => if rest = .nil then pure h else evalError "invalid expression"
  | .str _ => if rest = .nil then pure h else evalError "invalid expression"
  | .chr _ => if rest = .nil then pure h else evalError "invalid expression"
  | .bool _ => if rest = .nil then pure h else evalError "invalid expression"
  | .nil => if rest = .nil then pure h else evalError "invalid expression"
  | .other _ => stop .unmod
  | _ => evalError "not supported expression type"

/-- One activation. -/
def step (P : Prims σ) (rec : Rec σ) : Task → EM σ V
  | .eval env ast =>
    match ast with
    | .sym x => if isKeyword x = true then pure ast else lookupSymbol env x
    | .pair h rest => evalPair P rec env h rest
    | x => pure x
  | .expand env ast => expandMacros rec env ast
  | .doLoop de test res body steps => doLoop rec de test res body steps
  | .mexpand ast => macroexpandLoop rec ast

/-- The evaluator with fuel. -/
def ev (P : Prims σ) : Nat → Task → EM σ V
  | 0, _ => EM.diverge
  | n + 1, t => step P (ev P n) t

end Pscm.Ev
