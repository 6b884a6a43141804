import Verif.Basic
/-!
# Module lookup with binders and autoloads

Full model of `module_search_variable` (src/c/module.cc:93-190), whose steps 4 and 5 (binder, autoload) the evaluator model leaves out.  Binders and the
loading of modules are programs that may look up variables themselves, so the lookup is recursive.
-/
namespace Pscm.Msr

abbrev Name := String
abbrev ModName := List String

/-- Values: `#f`, module objects, variable objects (src/c/variable.cc) with their contents or unbound, others. -/
inductive Val
  | fls
  | mod (id : Nat)
  | var (contents : Val)
  | unboundVar
  | obj (id : Nat)
  deriving DecidableEq, Repr

/-- `SCM_Module` (src/c/pscm_types.h:124-135), the fields used here. -/
structure Mod where
  obarray : List (Name × Val)
  uses : List Nat
  binder : Option Nat
  iface : Option Nat
  specs : List (ModName × List Name)
  deriving DecidableEq, Repr

/-- Modules by number, the root module, and `g_in_binder_call` (src/c/module.cc:10). -/
structure St where
  mods : List Mod
  root : Nat
  guard : Bool
  deriving DecidableEq, Repr

/-- What a binder or a loaded file does, as far as modules are concerned: variable lookups, changes of modules (definitions, exports, `module-use!`, …),
an error or a result. -/
inductive Prog
  | ret (v : Val)
  | raise (e : Nat)
  | look (m : Nat) (x : Name) (k : Option Val → Prog)
  | edit (f : List Mod → List Mod) (k : List Mod → Prog)

/-- The procedures that are used as binders, given the module and the name, and `scm_resolve_module` (src/c/module.cc:297-420). -/
structure World where
  binder : Nat → Nat → Name → Prog
  resolve : ModName → Prog

/-- `module_obarray_lookup` (src/c/module.cc:69-88). -/
def obLookup (ms : List Mod) (m : Nat) (x : Name) : Option Val :=
  match ms[m]? with
  | some md => md.obarray.lookup x
  | none => none

/-- The first binding among the modules of the list. -/
def firstOf (ms : List Mod) (x : Name) : List Nat → Option Val
  | [] => none
  | u :: us => match obLookup ms u x with
    | some v => some v
    | none => firstOf ms x us

/-- Steps 1-3 of `module_search_variable` (src/c/module.cc:94-121). -/
def bound (ms : List Mod) (root m : Nat) (x : Name) : Option Val :=
  match obLookup ms m x with
  | some v => some v
  | none =>
    match firstOf ms x (match ms[m]? with | some md => md.uses | none => []) with
    | some v => some v
    | none => if m ≠ root then obLookup ms root x else none

/-- The first autoload spec that lists the name, and the remaining specs (src/c/module.cc:143-164). -/
def takeSpec (x : Name) : List (ModName × List Name) → Option (ModName × List (ModName × List Name))
  | [] => none
  | (n, syms) :: specs =>
    if syms.contains x then some (n, specs)
    else match takeSpec x specs with
      | some (n', rest) => some (n', (n, syms) :: rest)
      | none => none

/-- `module->autoload_specs = …`. -/
def setSpecs (ms : List Mod) (m : Nat) (specs : List (ModName × List Name)) : List Mod := ms.modify m fun md => { md with specs := specs }

/-- The interface of module `u` (or itself) is added to the uses of `m` (src/c/module.cc:169-173). -/
def addUse (ms : List Mod) (m u : Nat) : List Mod :=
  let i := match ms[u]? with | some md => md.iface.getD u | none => u
  ms.modify m fun md => { md with uses := i :: md.uses }

mutual
/-- The steps of a program. -/
def run (W : World) : Nat → Prog → St → Res Val × St
  | 0, _, s => (.oof, s)
  | _ + 1, .ret v, s => (.ok v, s)
  | _ + 1, .raise e, s => (.err (.thrown e), s)
  | n + 1, .look m x k, s => match search W n m x s with
    | (.ok r, s) => run W n (k r) s
    | (.err e, s) => (.err e, s)
    | (.abort, s) => (.abort, s)
    | (.ub, s) => (.ub, s)
    | (.oof, s) => (.oof, s)
  | n + 1, .edit f k, s => run W n (k s.mods) { s with mods := f s.mods }

/-- `module_search_variable` (src/c/module.cc:93-190); `none`: not found. -/
def search (W : World) : Nat → Nat → Name → St → Res (Option Val) × St
  | 0, _, _, s => (.oof, s)
  | n + 1, m, x, s =>
    match bound s.mods s.root m x with
    | some v => (.ok (some v), s)
    | none =>
      match s.mods[m]? with
      | none => (.ub, s)
      | some md =>
        match md.binder with
        | none => autoload W n m x s
        | some b =>
          if s.guard then autoload W n m x s
          else match run W n (W.binder b m x) { s with guard := true } with
            | (.ok .fls, s) => autoload W n m x { s with guard := false }
            | (.ok .unboundVar, s) => (.err .evalError, { s with guard := false })
            | (.ok (.var v), s) => (.ok (some v), { s with guard := false })
            | (.ok v, s) => (.ok (some v), { s with guard := false })
            | (.err e, s) => (.err e, s)
            | (.abort, s) => (.abort, s)
            | (.ub, s) => (.ub, s)
            | (.oof, s) => (.oof, s)

/-- Step 5: autoload specs (src/c/module.cc:141-187). -/
def autoload (W : World) : Nat → Nat → Name → St → Res (Option Val) × St
  | 0, _, _, s => (.oof, s)
  | n + 1, m, x, s =>
    match s.mods[m]? with
    | none => (.ub, s)
    | some md =>
      match takeSpec x md.specs with
      | none => (.ok none, s)
      | some (name, rest) =>
        match run W n (W.resolve name) { s with mods := setSpecs s.mods m rest } with
        | (.ok (.mod u), s) => search W n m x { s with mods := addUse s.mods m u }
        | (.ok _, s) => (.ok none, s)
        | (.err e, s) => (.err e, s)
        | (.abort, s) => (.abort, s)
        | (.ub, s) => (.ub, s)
        | (.oof, s) => (.oof, s)
end

/-! ## The options of `define-module` -/

/-- The items after the module name: symbols (keywords are read as symbols: src/c/parse.cc:1222-1231), lists (module names), anything else. -/
inductive Item
  | sym (x : Name)
  | list (n : ModName)
  | other
  deriving DecidableEq, Repr

/-- What an option asks for. -/
inductive Opt
  | use (n : ModName)
  | export (x : Name)
  | autoload (n : ModName) (syms : List Name)
  deriving DecidableEq, Repr

/-- The symbols among the items. -/
def symsOf : List Item → List Name
  | [] => []
  | .sym x :: is => x :: symsOf is
  | _ :: is => symsOf is

/-- The scan over the options (src/c/module.cc:767-841); `ex`: within `#:export`.  The symbols of an autoload are all symbols that follow (810-821), and the
scan goes on after the module name (833). -/
def options : Bool → List Item → List Opt
  | _, [] => []
  | true, .sym k :: is => .export k :: options true is
  | false, .sym k :: is =>
    if k = "use-module" then match is with
      | [] => []
      | .list n :: is' => .use n :: options false is'
      | _ :: is' => options false is'
    else if k = "export" then options true is
    else if k = "autoload" then match is with
      | [] => []
      | .list n :: is' => (if symsOf is' = [] then [] else [.autoload n (symsOf is')]) ++ options false is'
      | _ :: is' => options false is'
    else options false is
  | _, _ :: is => options false is

end Pscm.Msr
