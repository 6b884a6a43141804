import Verif.Ev
/-!
# Modules: creation, export, import
-/
namespace Pscm.Ev
variable {σ : Type}

/-- `scm_make_module` (src/c/module.cc:16-41): no bindings, no imports, no exports. -/
def freshModule (name : V) : Modl := ⟨name, [], [], [], Option.none⟩

/-- Look a module up by name in the registry (src/c/module.cc:303-306, 745-747); module names are lists of
symbols compared with `equal?`.  Interfaces carry the name of their module but are not registered, so the
first module of that name is the registered one (it is created first). -/
def findByName (ms : List Modl) (name : V) : Option Nat :=
  let i := ms.findIdx fun m => m.name == name
  if i < ms.length then some i else Option.none

/-- The interface obarray made from an export list by `scm_ensure_public_interface` (src/c/module.cc:462-473):
the exported names bound in the module's own obarray, with their current *values*. -/
def exportsObarray (ob : List (Name × V)) : List Name → List (Name × V)
  | [] => []
  | x :: xs =>
    match findEntry x ob with
    | some v => upsert x v (exportsObarray ob xs)
    | Option.none => exportsObarray ob xs

/-- `scm_ensure_public_interface` (src/c/module.cc:448-476).  The interface points back at the module
("bidirectional"). -/
def ensureIface (ms : List Modl) (m : Nat) : List Modl × Option Nat :=
  match ms[m]? with
  | Option.none => (ms, Option.none)
  | some md =>
    match md.pub with
    | some i => (ms, some i)
    | Option.none =>
      ((ms.set m { md with pub := some ms.length }) ++
        [⟨md.name, exportsObarray md.obarray md.exports, [], [], some m⟩], some ms.length)

/-- `scm_module_export` (src/c/module.cc:479-497): record the name, copy the *current value* into the interface. -/
def exportSym (ms : List Modl) (root m : Nat) (x : Name) : List Modl :=
  match ms[m]? with
  | Option.none => ms
  | some md =>
    let ms1 := ms.set m { md with exports := x :: md.exports }
    match ensureIface ms1 m with
    | (ms2, some i) =>
      match searchModule ms2 root m x with
      | some v => obSet ms2 i x v
      | Option.none => ms2
    | (ms2, Option.none) => ms2

/-- The module that is added to the import list: `public_interface`, or the module itself when it has none
(src/c/module.cc:863-869, 1093-1099). -/
def ifaceOf (ms : List Modl) (m : Nat) : Nat :=
  match ms[m]? with
  | some md => md.pub.getD m
  | Option.none => m

/-- Add module `u`'s interface at the head of `m`'s import list (src/c/module.cc:871-876, 1101-1106). -/
def useModule (ms : List Modl) (m u : Nat) : List Modl :=
  match ms[m]? with
  | some md => ms.set m { md with uses := ifaceOf ms u :: md.uses }
  | Option.none => ms

/-- `scm_c_module_bound_p` (src/c/module.cc:705-718). -/
def moduleBound (ms : List Modl) (root m : Nat) (x : Name) : Bool :=
  match searchModule ms root m x with
  | some v => truthy v
  | Option.none => false

/-- `(export x ...)`, `(re-export x ...)` (src/c/module.cc:884-930): non-symbols are skipped. -/
def exportAll (ms : List Modl) (root m : Nat) : List V → List Modl
  | [] => ms
  | .sym x :: xs => exportAll (exportSym ms root m x) root m xs
  | _ :: xs => exportAll ms root m xs

end Pscm.Ev
