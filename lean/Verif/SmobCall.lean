import Verif.Misc
import Verif.Str
/-!
# The functions of smob types: printing, equality, application

Model of the descriptor functions of `src/c/smob.cc` and of their uses in `src/c/eq.cc`, `src/c/print.cc` and `src/c/eval.cc`.
(The descriptors without functions and the data fields are in `Verif.Misc`.)
-/
namespace Pscm.Smb
open Pscm.Misc

/-- The function slots of a descriptor (src/c/smob.h:11-23). -/
inductive Slot | mark | free | print | equalp | apply0 | apply1 | apply2 | apply3
  deriving DecidableEq, Repr

/-- A function pointer: one of the defaults of src/c/smob.cc:12-57, or a function of the application. -/
inductive Fn
  | dfltMark | dfltFree | dfltPrint | dfltEqualp
  | user (f : Nat)
  deriving DecidableEq, Repr

/-- A descriptor: name, size, functions (`none`: a null pointer). -/
structure Desc where
  name : List UInt8
  size : Nat
  fn : Slot → Option Fn

/-- `g_smobs` up to `g_numsmob`. -/
abbrev Types := List Desc

/-- A fresh descriptor, src/c/smob.cc:77-91. -/
def fresh (name : List UInt8) (size : Nat) : Desc :=
  ⟨name, size, fun
    | .mark => some .dfltMark
    | .free => if size > 0 then some .dfltFree else none
    | .print => some .dfltPrint
    | .equalp => some .dfltEqualp
    | _ => none⟩

/-- `scm_make_smob_type`, src/c/smob.cc:69-94. -/
def makeType (t : Types) (name : List UInt8) (size : Nat) : Res Int × Types :=
  if t.length ≥ maxSmob then (.err .evalError, t) else (.ok (baseTag + t.length), t ++ [fresh name size])

/-- The index of a tag, with the check of every setter (src/c/smob.cc:98-102 and so on). -/
def index (t : Types) (tag : Int) : Res Nat := do
  let n ← smobNum tag
  if n < 0 ∨ n ≥ t.length then .err .evalError else pure n.toNat

/-- `g_smobs[num].slot = f`. -/
def store (t : Types) (i : Nat) (s : Slot) (f : Option Fn) : Types := t.modify i fun d => { d with fn := fun s' => if s' = s then f else d.fn s' }

/-- `scm_set_smob_mark`, `_free`, `_print`, `_equalp`, src/c/smob.cc:97-131. -/
def setFn (t : Types) (tag : Int) (s : Slot) (f : Option Fn) : Res Unit × Types :=
  match index t tag with
  | .ok i => (.ok (), store t i s f)
  | .err e => (.err e, t)
  | .abort => (.abort, t)
  | .ub => (.ub, t)
  | .oof => (.oof, t)

/-- `scm_set_smob_apply`, src/c/smob.cc:133-147. -/
def setApply (t : Types) (tag : Int) (f0 f1 f2 f3 : Option Fn) : Res Unit × Types :=
  match index t tag with
  | .ok i => (.ok (), store (store (store (store t i .apply0 f0) i .apply1 f1) i .apply2 f2) i .apply3 f3)
  | .err e => (.err e, t)
  | .abort => (.abort, t)
  | .ub => (.ub, t)
  | .oof => (.oof, t)

/-- `scm_get_smob_descriptor`, src/c/smob.cc:60-66. -/
def descriptor (t : Types) (tag : Int) : Res (Option Desc) := do
  let n ← smobNum tag
  if n < 0 ∨ n ≥ t.length then pure none else pure t[n.toNat]?

/-- Values: a smob object (`id`: its address) with its tag and data; a boolean; any other object with the number of its type
(src/c/pscm_types.h:17-39: NONE = 0, …, MODULE = 18, SMOB = 19, VARIABLE = 20). -/
inductive Val
  | smob (id : Nat) (tag : Int) (data : Int)
  | bool (b : Bool)
  | other (type : Nat) (id : Nat)
  deriving DecidableEq, Repr

/-- The type number of a value. -/
def Val.type : Val → Nat
  | .smob .. => 19
  | .bool _ => 9
  | .other t _ => t

/-- The world: what the functions of the application do, given their number and their arguments. -/
abbrev Calls (σ : Type) := Nat → List Val → σ → Res Val × σ

/-- `equal?` on two smobs (src/c/eq.cc:319-386: same object; the case `SMOB`, 364-382).  `is_true` of a result that is not a boolean is a type error. -/
def equalSmobs {σ : Type} (C : Calls σ) (t : Types) (i j : Nat) (ti di tj dj : Int) (s : σ) : Res Bool × σ :=
  if i = j then (.ok true, s)
  else if ti ≠ tj then (.ok false, s)
  else match descriptor t ti with
    | .ok (some d) => match d.fn .equalp with
      | some (.user f) => match C f [.smob i ti di, .smob j tj dj] s with
        | (.ok (.bool b), s) => (.ok b, s)
        | (.ok _, s) => (.err .typeError, s)
        | (.err e, s) => (.err e, s)
        | (.abort, s) => (.abort, s)
        | (.ub, s) => (.ub, s)
        | (.oof, s) => (.oof, s)
      | some _ => (.ok (decide (i = j)), s)
      | none => (.ok (decide (i = j)), s)
    | .ok none => (.ok (decide (i = j)), s)
    | .err e => (.err e, s)
    | .abort => (.abort, s)
    | .ub => (.ub, s)
    | .oof => (.oof, s)

/-- What printing a smob does: a call of the application's function, with the smob and the write mode, or the default text on standard output. -/
inductive Printed
  | call (f : Nat) (smob : Val) (writing : Bool)
  | text (bytes : List UInt8)
  | pointer (name : List UInt8) (data : Int)
  deriving DecidableEq, Repr

/-- `default_smob_print`, src/c/smob.cc:33-52: `#<name n>`; for types with a size, the data as a `%p` pointer. -/
def defaultPrint (d : Desc) (data : Int) : Printed :=
  if d.size > 0 then .pointer d.name data
  else .text ([35, 60] ++ d.name ++ [32] ++ printLld data ++ [62])

/-- Printing a smob, src/c/print.cc:210-228.  A smob always has a registered tag (`c82_…`); a null print function means the default. -/
def printSmob (t : Types) (i : Nat) (tag data : Int) (writing : Bool) : Res Printed :=
  match descriptor t tag with
  | .ok (some d) => match d.fn .print with
    | some (.user f) => .ok (.call f (.smob i tag data) writing)
    | _ => .ok (defaultPrint d data)
  | .ok none => .ub
  | .err e => .err e
  | .abort => .abort
  | .ub => .ub
  | .oof => .oof

/-- The evaluation of the argument expressions, one after the other (src/c/eval.cc:583-594). -/
def evalEach {σ X : Type} (ev : X → σ → Res Val × σ) : List X → σ → Res (List Val) × σ
  | [], s => (.ok [], s)
  | x :: xs, s => match ev x s with
    | (.ok v, s) => match evalEach ev xs s with
      | (.ok vs, s) => (.ok (v :: vs), s)
      | (.err e, s) => (.err e, s)
      | (.abort, s) => (.abort, s)
      | (.ub, s) => (.ub, s)
      | (.oof, s) => (.oof, s)
    | (.err e, s) => (.err e, s)
    | (.abort, s) => (.abort, s)
    | (.ub, s) => (.ub, s)
    | (.oof, s) => (.oof, s)

/-- The slot for an argument count (src/c/eval.cc:580-593). -/
def applySlot : Nat → Option Slot
  | 0 => some .apply0
  | 1 => some .apply1
  | 2 => some .apply2
  | 3 => some .apply3
  | _ => none

/-- A list whose first element is a smob, src/c/eval.cc:560-600. -/
def callSmob {σ X : Type} (C : Calls σ) (ev : X → σ → Res Val × σ) (t : Types) (i : Nat) (tag data : Int) (args : List X) (s : σ) : Res Val × σ :=
  match descriptor t tag with
  | .ok none => (.err .evalError, s)
  | .ok (some d) => match applySlot args.length with
    | none => (.err .evalError, s)
    | some slot => match d.fn slot with
      | some (.user f) => match evalEach ev args s with
        | (.ok vs, s) => C f (.smob i tag data :: vs) s
        | (.err e, s) => (.err e, s)
        | (.abort, s) => (.abort, s)
        | (.ub, s) => (.ub, s)
        | (.oof, s) => (.oof, s)
      | some _ => (.ub, s)
      | none => (.err .evalError, s)
  | .err e => (.err e, s)
  | .abort => (.abort, s)
  | .ub => (.ub, s)
  | .oof => (.oof, s)

/-- The operator of a combination: a symbol that is no special form or macro, a combination, or an object. -/
inductive Head (X : Type)
  | sym (name : String)
  | expr (x : X)
  | obj (v : Val)

/-- Evaluation of a combination whose operator is an object: a smob is called; the rest is left open. -/
def callObj {σ X : Type} (C : Calls σ) (ev : X → σ → Res Val × σ) (rest : Val → List X → σ → Res Val × σ) (t : Types) (v : Val) (args : List X) (s : σ) : Res Val × σ :=
  match v with
  | .smob i tag data => callSmob C ev t i tag data args s
  | v => rest v args s

/-- Evaluation of a combination: the operator is looked up and its type checked (src/c/eval.cc:504-547), or evaluated (678-685), or is an object
(548-677). -/
def evalCall {σ X : Type} (C : Calls σ) (ev : X → σ → Res Val × σ) (lookup : String → σ → Option Val) (rest : Val → List X → σ → Res Val × σ) (t : Types) :
    Head X → List X → σ → Res Val × σ
  | .sym n, args, s => match lookup n s with
    | none => (.err .evalError, s)
    | some v => if v.type ≤ 18 then callObj C ev rest t v args s else (.err .evalError, s)
  | .expr x, args, s => match ev x s with
    | (.ok v, s) => callObj C ev rest t v args s
    | (.err e, s) => (.err e, s)
    | (.abort, s) => (.abort, s)
    | (.ub, s) => (.ub, s)
    | (.oof, s) => (.oof, s)
  | .obj v, args, s => callObj C ev rest t v args s

end Pscm.Smb
