/-!
# The evaluator: values, state, environments, errors

Model of `eval_with_env` and of everything it calls.  The code and data manipulated by the
evaluator are trees (`V`); the mutation of list nodes (`set-car!`, ...) is the subject of the
heap model (`Verif.Heap`, `Verif.ListM`) and is not repeated here.

Simplifications, stated once:
* an `SCM_List*` chain is a `V`: `nullptr` is `nil`, a node is `pair`, and a last node with
  `is_dotted` is the non-list tail of the `pair` (`nodes` recovers the chain, which is what the C++ loops see);
  a dotted node whose datum is itself a list or nil (`(a . (b))` kept unflattened by the reader) is the flattened list;
* names are NUL-free, so `strcmp` is equality;
* the text of error messages, source locations, the debug call stack and `proc->name` are not modelled;
* module obarrays and the module registry are association lists instead of hash tables
  (that hash tables behave as finite maps is C26-C28);
* module binders, autoloads, `module-map`, `procedure-name` and smobs are not modelled: reaching them is the
  outcome `unmod`, never an invented result; the contents of files are supplied by the environment `P`;
* a continuation can be invoked while the frame that captured it is still on the C stack (escape);
  re-entering a frame that has returned is `unmod`.
-/
namespace Pscm.Ev

abbrev Name := String
/-- Environments are numbered. -/
scoped notation "EnvId" => Nat

/-- Values and code (src/c/pscm_types.h, `SCM` with its type tag). -/
inductive V
  | nil | none
  | bool (b : Bool)
  | num (n : Int)
  | flo (bits : UInt64)
  | chr (c : UInt8)
  | str (s : String)
  | sym (s : Name)
  | pair (a d : V)
  /-- a vector; the elements are held as a proper list -/
  | vec (elems : V)
  /-- `SCM_Procedure`: parameter list, body, captured environment -/
  | proc (params body : V) (env : EnvId)
  /-- `SCM_Function`: a builtin, with its `n_args` -/
  | func (name : Name) (arity : Int)
  /-- `SCM_Macro`: transformer parameters and body, environment of the `define-macro` -/
  | macro (params body : V) (env : EnvId)
  | promise (id : Nat)
  | modl (id : Nat)
  | cont (id : Nat)
  /-- any other type of object, e.g. ports, ratios, hash tables, smobs -/
  | other (tag : Nat)
  deriving DecidableEq, Repr, Inhabited

open V

/-- The data of the node chain of a list, including a dotted tail: what `while (l) l = l->next` visits. -/
def nodes : V → List V
  | .nil => []
  | .pair a d => a :: nodes d
  | x => [x]

/-- `l` as an `SCM_List*`: first datum and `l->next`; `none` is the null pointer. -/
def uncons : V → Option (V × V)
  | .nil => Option.none
  | .pair a d => some (a, d)
  | x => some (x, .nil)

/-- A fresh proper list. -/
def listOf : List V → V
  | [] => .nil
  | x :: xs => .pair x (listOf xs)

/-- `is_truthy` (src/c/pscm.h:59-64). -/
def truthy : V → Bool
  | .bool false => false
  | _ => true

/-- `is_pair` (src/c/pscm.h:18-20). -/
def isPair : V → Bool
  | .pair _ _ => true
  | _ => false

/-- `is_pair || is_nil`. -/
def isList : V → Bool
  | .pair _ _ => true
  | .nil => true
  | _ => false

/-- `is_proc || is_func`. -/
def isApplicable : V → Bool
  | .proc _ _ _ => true
  | .func _ _ => true
  | _ => false

/-- `is_macro`. -/
def isMacro : V → Bool
  | .macro _ _ _ => true
  | _ => false

/-- One environment frame: entries (head = most recently inserted), parent, module
(`SCM_Environment`, src/c/pscm_types.h). -/
structure Frame where
  entries : List (Name × V)
  parent : Option EnvId
  modl : Option Nat
  deriving DecidableEq, Repr, Inhabited

/-- A module (`SCM_Module`, src/c/pscm_types.h): bindings, imported modules (first searched first),
exported names, public interface. -/
structure Modl where
  name : V
  obarray : List (Name × V)
  uses : List Nat
  exports : List Name
  pub : Option Nat
  deriving DecidableEq, Repr, Inhabited

/-- `SCM_Promise`: the thunk's environment and expression, the value once forced. -/
structure Promise where
  env : EnvId
  expr : V
  val : Option V
  deriving DecidableEq, Repr, Inhabited

/-- An entry of `g_catch_stack` (src/c/throw.cc:30-35): the activation of `scm_c_catch` it points into, and its tag. -/
structure Catch where
  id : Nat
  tag : V
  deriving DecidableEq, Repr, Inhabited

/-- An entry of `g_wind_chain` (src/c/dynwind.cc:190-199); `id` is the identity of the pair. -/
structure Wind where
  id : Nat
  inG : V
  outG : V
  deriving DecidableEq, Repr, Inhabited

/-- What `scm_make_continuation` saves besides the stack (src/c/continuation.cc:50-55). -/
structure ContInfo where
  id : Nat
  winds : List Wind
  modl : Nat
  deriving DecidableEq, Repr, Inhabited

/-- The interpreter state.  `σ` is the rest of the world, touched only by builtins.
* `frames`: all environments, by id; frame 0 is `g_env`;
* `cur`, `root`: `g_current_module`, `g_root_module`;
* `catches`: `g_catch_stack[0 .. g_catch_stack_top)`, head = top;
* `live`: the activations of `scm_c_catch` and of `call/cc` still on the C stack, innermost first;
* `winds`: `g_wind_chain`, innermost first. -/
structure St (σ : Type) where
  frames : List Frame
  mods : List Modl
  cur : Nat
  root : Nat
  proms : List Promise
  catches : List Catch
  live : List Nat
  winds : List Wind
  conts : List ContInfo
  next : Nat
  ext : σ
  deriving Repr

/-- The ways in which control leaves a C++ function other than by returning.
* `err t k a`: `scm_throw` of key `k` and arguments `a`; `t` is the `catch` activation whose `longjmp`
  buffer was selected, or `none`: uncaught, the process prints a message and exits;
* `esc c v`: the continuation `c` was invoked with `v`;
* `abort`: failed `assert`;  `ub`: null or dangling pointer access;  `unmod`: not modelled. -/
inductive Stop
  | err (tgt : Option Nat) (key : Name) (args : V)
  | esc (id : Nat) (v : V)
  | abort
  | ub
  | unmod
  deriving DecidableEq, Repr

inductive Out (α : Type)
  | ok (a : α)
  | stop (x : Stop)
  deriving DecidableEq, Repr

/-- A computation; `none` means that the model's fuel ran out (the program is still running). -/
def EM (σ α : Type) := St σ → Option (Out α × St σ)

variable {σ : Type}

namespace EM
variable {α β : Type}

def pure (a : α) : EM σ α := fun s => some (.ok a, s)

def bind (x : EM σ α) (f : α → EM σ β) : EM σ β := fun s =>
  match x s with
  | Option.none => Option.none
  | some (.ok a, s') => f a s'
  | some (.stop e, s') => some (.stop e, s')

instance : Monad (EM σ) where
  pure := EM.pure
  bind := EM.bind

/-- Leave by `e`. -/
def stop (e : Stop) : EM σ α := fun s => some (.stop e, s)
def getSt : EM σ (St σ) := fun s => some (.ok s, s)
def modSt (f : St σ → St σ) : EM σ Unit := fun s => some (.ok (), f s)
/-- no fuel -/
def diverge : EM σ α := fun _ => Option.none

end EM

open EM (stop getSt modSt)

/-! ## Errors -/

/-- `tags_match` (src/c/throw.cc:42-57); keys are symbols. -/
def tagMatches (tag : V) (key : Name) : Bool :=
  match tag with
  | .bool true => true
  | .sym t => t == key
  | _ => false

/-- The scan of the catch stack by `scm_throw` (src/c/throw.cc:176-185), from the top down.
The entries point into C stack frames: looking at one whose `scm_c_catch` has returned is a
dangling access.  The flag `jbr->active` is true from before the body until `scm_c_catch`
pops an entry on its way out, i.e. whenever the activation is live. -/
inductive Target
  | catch (id : Nat)
  | uncaught
  | dangling
  deriving DecidableEq, Repr

def scan (live : List Nat) (key : Name) : List Catch → Target
  | [] => .uncaught
  | c :: cs =>
    if c.id ∈ live then
      if tagMatches c.tag key then .catch c.id else scan live key cs
    else .dangling

/-- How a throw leaves the current function, given the catch stack. -/
def throwStop (s : St σ) (key : Name) (args : V) : Stop :=
  match scan s.live key s.catches with
  | .catch id => .err (some id) key args
  | .uncaught => .err Option.none key args
  | .dangling => .ub

/-- `scm_throw` (src/c/throw.cc:134-190).  The scan for lazy catches in the wind chain (138-173) never
finds one for Scheme code: the first datum of a wind entry is a procedure. -/
def throwKey {α : Type} (key : Name) (args : V) : EM σ α := fun s =>
  some (.stop (throwStop s key args), s)

/-- `eval_error` (src/c/error.cc:201-253): key `error`, arguments a list of one message string. -/
def evalError {α : Type} (msg : String) : EM σ α := throwKey "error" (.pair (.str msg) .nil)

/-- `type_error` (src/c/error.cc:166-199) ends in `eval_error`. -/
def typeError {α : Type} : EM σ α := evalError "Type error"

/-- `throw_wrong_number_of_args` (src/c/throw.cc:525-556). -/
def wrongArgs {α : Type} (f : V) : EM σ α :=
  throwKey "wrong-number-of-args"
    (listOf [.bool false, .str "Wrong number of arguments to ~A", f, .bool false])

/-! ## Environments -/

/-- Entry of a name in one frame: the loop of `scm_env_search_entry` (src/c/environment.cc:6-23). -/
def findEntry (x : Name) : List (Name × V) → Option V
  | [] => Option.none
  | (k, v) :: es => if k = x then some v else findEntry x es

/-- `entry->value = val` on the first entry for `x`. -/
def setEntry (x : Name) (v : V) : List (Name × V) → List (Name × V)
  | [] => []
  | (k, w) :: es => if k = x then (k, v) :: es else (k, w) :: setEntry x v es

/-- Does the frame hold an entry? -/
def hasEntry (x : Name) (es : List (Name × V)) : Bool := (findEntry x es).isSome

/-- Update the first entry for `x`, else push a new one at the head. -/
def upsert (x : Name) (v : V) (es : List (Name × V)) : List (Name × V) :=
  if hasEntry x es = true then setEntry x v es else (x, v) :: es

/-- `scm_env_search_entry(env, sym, false)`: own frame only. -/
def lookOwn (fr : List Frame) (e : EnvId) (x : Name) : Option V :=
  match fr[e]? with
  | some f => findEntry x f.entries
  | Option.none => Option.none

/-- `scm_env_search_entry(env, sym, true)` (src/c/environment.cc:4-29): the frame that holds the entry.
The recursion over `parent` is bounded by `n`; a parent is always created before its children, so
`n = e + 1` is enough (`Verif.EvEnv`). -/
def findFrame (fr : List Frame) (x : Name) : Nat → EnvId → Option EnvId
  | 0, _ => Option.none
  | n + 1, e =>
    match fr[e]? with
    | Option.none => Option.none
    | some f =>
      if hasEntry x f.entries then some e
      else match f.parent with
        | some p => findFrame fr x n p
        | Option.none => Option.none

/-- Lookup through the parent chain. -/
def lookChain (fr : List Frame) (e : EnvId) (x : Name) : Option V :=
  match findFrame fr x (e + 1) e with
  | some i => lookOwn fr i x
  | Option.none => Option.none

/-- Replace the entries of one frame. -/
def updFrame (fr : List Frame) (e : EnvId) (g : List (Name × V) → List (Name × V)) : List Frame :=
  match fr[e]? with
  | some f => fr.set e { f with entries := g f.entries }
  | Option.none => fr

/-- `scm_env_insert(env, sym, value, false)` (src/c/environment.cc:31-46): update the own entry, else push a new one. -/
def insertOwn (fr : List Frame) (e : EnvId) (x : Name) (v : V) : List Frame :=
  updFrame fr e (upsert x v)

/-- `scm_env_insert(env, sym, value, true)`, the default (src/c/pscm.h:754): update the entry of the nearest
frame that has one, else push a new one in `env`. -/
def insertDeep (fr : List Frame) (e : EnvId) (x : Name) (v : V) : List Frame :=
  match findFrame fr x (e + 1) e with
  | some i => updFrame fr i (setEntry x v)
  | Option.none => updFrame fr e fun es => (x, v) :: es

/-- The first module on the parent chain (src/c/environment.cc:80-92). -/
def chainModule (fr : List Frame) : Nat → EnvId → Option Nat
  | 0, _ => Option.none
  | n + 1, e =>
    match fr[e]? with
    | Option.none => Option.none
    | some f =>
      match f.modl with
      | some m => some m
      | Option.none => match f.parent with
        | some p => chainModule fr n p
        | Option.none => Option.none

/-! ## Modules -/

/-- `module_obarray_lookup` (src/c/module.cc:65-86). -/
def obLookup (ms : List Modl) (m : Nat) (x : Name) : Option V :=
  match ms[m]? with
  | some md => findEntry x md.obarray
  | Option.none => Option.none

/-- First module of the list whose obarray has the name. -/
def firstWith (ms : List Modl) (x : Name) : List Nat → Option Nat
  | [] => Option.none
  | u :: us => if (obLookup ms u x).isSome then some u else firstWith ms x us

/-- `module_find_variable_module` (src/c/module.cc:190-222): own obarray, then uses in order (one level),
then the root module. -/
def findModule (ms : List Modl) (root m : Nat) (x : Name) : Option Nat :=
  if (obLookup ms m x).isSome then some m
  else match ms[m]? with
    | Option.none => Option.none
    | some md =>
      match firstWith ms x md.uses with
      | some u => some u
      | Option.none =>
        if m ≠ root ∧ (obLookup ms root x).isSome then some root else Option.none

/-- `module_search_variable` (src/c/module.cc:91-185), steps 1-3; without binder and autoload specs
steps 4-5 find nothing. -/
def searchModule (ms : List Modl) (root m : Nat) (x : Name) : Option V :=
  match findModule ms root m x with
  | some u => obLookup ms u x
  | Option.none => Option.none

/-- `scm_c_hash_set_eq(module->obarray, sym, val)`. -/
def obSet (ms : List Modl) (m : Nat) (x : Name) (v : V) : List Modl :=
  match ms[m]? with
  | some md => ms.set m { md with obarray := upsert x v md.obarray }
  | Option.none => ms

/-! ## Variable reference -/

/-- Lookup in the module of the environment (src/c/environment.cc:80-92). -/
def chainValue (s : St σ) (e : EnvId) (x : Name) : Option V :=
  match chainModule s.frames (e + 1) e with
  | some m => searchModule s.mods s.root m x
  | Option.none => Option.none

/-- `scm_env_search` (src/c/environment.cc:58-128). -/
def envSearch (s : St σ) (e : EnvId) (x : Name) : Option V :=
  match lookChain s.frames e x with
  | some v => some v
  | Option.none =>
    match chainValue s e x with
    | some v => some v
    | Option.none =>
      match searchModule s.mods s.root s.cur x with
      | some v => some v
      | Option.none => if e ≠ 0 then lookOwn s.frames 0 x else Option.none

/-- `lookup_symbol` (src/c/eval.cc:160-166). -/
def lookupSymbol (e : EnvId) (x : Name) : EM σ V := do
  let s ← getSt
  match envSearch s e x with
  | some v => pure v
  | Option.none => evalError "symbol not found"

/-- The value a symbol in operator position has before special forms are considered
(src/c/eval.cc:290-332): the own frame, then -- only in a module other than the root -- the current
module's obarray and its uses, then a *macro* of `g_env`. -/
def opValue (s : St σ) (e : EnvId) (x : Name) : Option V :=
  match lookOwn s.frames e x with
  | some v => some v
  | Option.none =>
    match (if s.cur ≠ s.root then
             (match obLookup s.mods s.cur x with
              | some v => some v
              | Option.none =>
                match s.mods[s.cur]? with
                | Option.none => Option.none
                | some md =>
                  match firstWith s.mods x md.uses with
                  | some u => obLookup s.mods u x
                  | Option.none => Option.none)
           else Option.none) with
    | some v => some v
    | Option.none =>
      match lookOwn s.frames 0 x with
      | some v => if isMacro v then some v else Option.none
      | Option.none => Option.none

/-- `make_env(parent)` (src/c/pscm.h:200-207): an empty frame that inherits the parent's module pointer.  A parent that is
not an environment is a wild pointer. -/
def newEnv (parent : EnvId) : EM σ EnvId := fun s =>
  match s.frames[parent]? with
  | some f => some (.ok s.frames.length, { s with frames := s.frames ++ [⟨[], some parent, f.modl⟩] })
  | Option.none => some (.stop .ub, s)

/-- `scm_env_insert(env, x, v, /*search_parent=*/false)`. -/
def bindOwn (e : EnvId) (x : Name) (v : V) : EM σ Unit :=
  modSt fun s => { s with frames := insertOwn s.frames e x v }

/-- `scm_env_insert(env, x, v)` with the default `search_parent = true`. -/
def bindDeep (e : EnvId) (x : Name) (v : V) : EM σ Unit :=
  modSt fun s => { s with frames := insertDeep s.frames e x v }

/-- A binding in the obarray of module `m`. -/
def bindMod (m : Nat) (x : Name) (v : V) : EM σ Unit :=
  modSt fun s => { s with mods := obSet s.mods m x v }

/-- The store of `set!` (src/c/eval.cc:83-111). -/
def assignSt (s : St σ) (e : EnvId) (x : Name) (v : V) : St σ :=
  match findFrame s.frames x (e + 1) e with
  | some i => { s with frames := updFrame s.frames i (setEntry x v) }
  | Option.none =>
    match findModule s.mods s.root s.cur x with
    | some m => { s with mods := obSet s.mods m x v }
    | Option.none => { s with frames := insertOwn s.frames e x v }

/-- The store of `(define x v)` (src/c/define.cc:24-53).  `scm_current_module()` is always a module after
`init_modules`, so the last fallback of the C++ is dead. -/
def defineSt (s : St σ) (e : EnvId) (x : Name) (v : V) : St σ :=
  match s.frames[e]? with
  | Option.none => s
  | some f =>
    match f.parent with
    | some _ =>
      match f.modl with
      | some m => { s with mods := obSet s.mods m x v }
      | Option.none => { s with frames := insertOwn s.frames e x v }
    | Option.none =>
      if (lookOwn s.frames 0 x).isSome then { s with frames := updFrame s.frames 0 (setEntry x v) }
      else { s with mods := obSet s.mods s.cur x v }

/-- The store of `(define (f ...) ...)` (src/c/define.cc:157-167): always the current module. -/
def defineProcSt (s : St σ) (x : Name) (v : V) : St σ :=
  { s with mods := obSet s.mods s.cur x v }

/-- The store of `define-macro` (src/c/macro.cc:255-267, 305-317). -/
def defineMacroSt (s : St σ) (e : EnvId) (x : Name) (v : V) : St σ :=
  if s.cur ≠ s.root then { s with mods := obSet s.mods s.cur x v }
  else match s.frames[e]? with
    | Option.none => s
    | some f =>
      match f.parent with
      | some _ => { s with frames := insertDeep s.frames e x v }
      | Option.none =>
        if (lookOwn s.frames 0 x).isSome then { s with frames := updFrame s.frames 0 (setEntry x v) }
        else { s with frames := insertDeep s.frames e x v }

end Pscm.Ev
