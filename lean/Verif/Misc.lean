import Verif.Heap
/-!
# Variables, smobs and read options — model of `src/c/variable.cc`, `src/c/smob.cc`, `src/c/read.cc`
-/
namespace Pscm.Misc

/-! ## src/c/variable.cc -/

/-- The variable objects allocated so far (`SCM_Variable::value`, null when unbound) and the identity of the next `SCM` record.  A variable
object is `Val.other .variable a`. -/
structure Vars where
  vals : List (Option Obj)
  nextId : Nat
  deriving DecidableEq

/-- `wrap(var)` for a fresh `SCM_Variable`. -/
def newVar (s : Vars) (x : Option Obj) : Res Obj × Vars :=
  (.ok ⟨s.nextId, .other .variable s.vals.length⟩, ⟨s.vals ++ [x], s.nextId + 1⟩)

/-- The `is_variable` check and `cast<SCM_Variable>`. -/
def varOf (s : Vars) (o : Obj) : Res (Nat × Option Obj) :=
  match o.v with
  | .other .variable a => match s.vals[a]? with
    | some x => .ok (a, x)
    | none => .ub
  | _ => .err .evalError

/-- `scm_make_variable`, src/c/variable.cc:6-10. -/
def makeVariable (s : Vars) (init : Obj) : Res Obj × Vars := newVar s (some init)

/-- `scm_make_undefined_variable`, src/c/variable.cc:13-17. -/
def makeUndefined (s : Vars) : Res Obj × Vars := newVar s none

/-- `scm_variable_p`, src/c/variable.cc:20-22. -/
def isVariable (o : Obj) : Bool := match o.v with | .other .variable _ => true | _ => false

/-- `scm_variable_ref`, src/c/variable.cc:25-34. -/
def variableRef (s : Vars) (o : Obj) : Res Obj := do
  let (_, x) ← varOf s o
  match x with
  | some v => pure v
  | none => .err .evalError

/-- `scm_variable_set_x`, src/c/variable.cc:37-44. -/
def variableSet (s : Vars) (o v : Obj) : Res Obj × Vars :=
  match varOf s o with
  | .ok (a, _) => (.ok Obj.none, { s with vals := s.vals.set a (some v) })
  | .err e => (.err e, s)
  | .abort => (.abort, s)
  | .ub => (.ub, s)
  | .oof => (.oof, s)

/-- `scm_variable_bound_p`, src/c/variable.cc:47-53. -/
def variableBound (s : Vars) (o : Obj) : Res Obj := do
  let (_, x) ← varOf s o
  pure (Obj.ofBool x.isSome)

/-! ## src/c/smob.cc -/

/-- A type descriptor (src/c/smob.h:11-23) without its functions. -/
structure SmobType where
  name : List UInt8
  size : Nat
  deriving DecidableEq

/-- `SCM_Smob`, src/c/smob.h:26-32; `data` as a number. -/
structure Smob where
  tag : Int
  data : Int
  data2 : Int
  data3 : Int
  flags : Int
  deriving DecidableEq

/-- `g_smobs` up to `g_numsmob`, and the smobs allocated. -/
structure Smobs where
  types : List SmobType
  objs : List Smob
  deriving DecidableEq

/-- `SCM_SMOB_BASE_TAG`, `MAX_SMOB_COUNT`. -/
def baseTag : Int := 0x1000000
def maxSmob : Nat := 256

/-- `get_smob_num`, src/c/smob.h:44-46: a `long` difference. -/
def smobNum (tag : Int) : Res Int := if tag - baseTag < -(2 ^ 63) then .ub else .ok (tag - baseTag)

/-- The tag check of the constructors (src/c/smob.cc:151-155 and so on). -/
def checkTag (s : Smobs) (tag : Int) : Res Unit := do
  let n ← smobNum tag
  if n < 0 ∨ n ≥ s.types.length then .err .evalError else pure ()

/-- `scm_make_smob_type`, src/c/smob.cc:72-97. -/
def makeSmobType (s : Smobs) (name : List UInt8) (size : Nat) : Res Int × Smobs :=
  if s.types.length ≥ maxSmob then (.err .evalError, s)
  else (.ok (baseTag + s.types.length), { s with types := s.types ++ [⟨name, size⟩] })

/-- `scm_make_smob_with_data3`, src/c/smob.cc:219-239; the other constructors (151-216) set the unused fields to 0.  The result is the number
of the smob. -/
def makeSmob3 (s : Smobs) (tag d1 d2 d3 : Int) : Res Nat × Smobs :=
  match checkTag s tag with
  | .ok _ => (.ok s.objs.length, { s with objs := s.objs ++ [⟨tag, d1, d2, d3, 0⟩] })
  | .err e => (.err e, s)
  | .abort => (.abort, s)
  | .ub => (.ub, s)
  | .oof => (.oof, s)

def makeSmob2 (s : Smobs) (tag d1 d2 : Int) : Res Nat × Smobs := makeSmob3 s tag d1 d2 0
def makeSmob (s : Smobs) (tag d : Int) : Res Nat × Smobs := makeSmob3 s tag d 0 0

/-- The fields of a smob. -/
inductive SmobField | data | data2 | data3 | flags
  deriving DecidableEq

/-- `scm_smob_data`, `…_data2`, `…_data3`, `…_flags`, src/c/smob.cc:242-276, on the `i`-th smob. -/
def smobGet (s : Smobs) (i : Nat) (f : SmobField) : Res Int :=
  match s.objs[i]? with
  | none => .ub
  | some o => .ok (match f with | .data => o.data | .data2 => o.data2 | .data3 => o.data3 | .flags => o.flags)

/-- The assignment in `scm_set_smob_data`, …, src/c/smob.cc:279-313. -/
def Smob.put (o : Smob) (f : SmobField) (v : Int) : Smob :=
  match f with
  | .data => { o with data := v }
  | .data2 => { o with data2 := v }
  | .data3 => { o with data3 := v }
  | .flags => { o with flags := v }

/-- `scm_set_smob_data`, …, src/c/smob.cc:279-313. -/
def smobSet (s : Smobs) (i : Nat) (f : SmobField) (v : Int) : Res Unit × Smobs :=
  match s.objs[i]? with
  | none => (.ub, s)
  | some o =>
    (.ok (), { s with objs := s.objs.set i (o.put f v) })

/-- `is_smob_type`, src/c/smob.h:49-55. -/
def isSmobType (s : Smobs) (i : Nat) (tag : Int) : Res Bool :=
  match s.objs[i]? with
  | none => .ub
  | some o => .ok (decide (o.tag = tag))

/-- `scm_get_smob_descriptor`, src/c/smob.cc:63-69. -/
def descriptor (s : Smobs) (tag : Int) : Res (Option SmobType) := do
  let n ← smobNum tag
  if n < 0 ∨ n ≥ s.types.length then pure none else pure s.types[n.toNat]?

/-- `scm_c_smob_data` (`scm-smob-data`), src/c/smob.cc:383-404. -/
def scmSmobData (s : Smobs) (i : Nat) : Res Int :=
  match s.objs[i]? with
  | none => .ub
  | some o => do
    let d ← descriptor s o.tag
    match d with
    | some t => if t.size > 0 then .err .evalError else pure o.data
    | none => pure o.data

/-! ## src/c/read.cc -/

/-- The arguments of the option procedures: booleans, symbols, `(quote x)` forms, anything else. -/
inductive Arg
  | bool (b : Bool)
  | sym (s : String)
  | quote (x : Arg)
  | other (k : Nat)
  deriving DecidableEq, Repr

/-- `scm_read_opts`, src/c/read.cc:25-34; `keywords` is `none` for 0. -/
structure Opts where
  copy : Bool
  positions : Bool
  caseInsensitive : Bool
  keywords : Option Arg
  deriving DecidableEq, Repr

/-- The defaults, src/c/read.cc:25-34. -/
def defaults : Opts := ⟨false, true, false, none⟩

/-- `get_read_option_setting`, src/c/read.cc:67-117. -/
def setting (o : Opts) : List Arg :=
  [.sym "keywords", (o.keywords.getD (.bool false))] ++ (if o.caseInsensitive then [.sym "case-insensitive"] else []) ++
  (if o.positions then [.sym "positions"] else []) ++ (if o.copy then [.sym "copy"] else [])

/-- `extract_symbol`, src/c/read.cc:120-139. -/
def extractSymbol : Arg → Option String
  | .sym s => some s
  | .quote (.sym s) => some s
  | _ => none

/-- The value of an SCM option, src/c/read.cc:228-245. -/
def optionValue (x : Arg) : Option Arg :=
  let x := match x with | .quote y => y | y => y
  if x = .bool false then none else some x

/-- Switching a boolean option on by its name, src/c/read.cc:196-214. -/
def switchOn (o : Opts) (name : String) : Option Opts :=
  if name = "copy" then some { o with copy := true }
  else if name = "positions" then some { o with positions := true }
  else if name = "case-insensitive" then some { o with caseInsensitive := true }
  else none

/-- The loop of `change_read_option_setting`, src/c/read.cc:164-251, on the temporary values: a boolean option is left alone when `#f` follows
its name (196-214). -/
def changeLoop (o : Opts) : List Arg → Res Opts
  | [] => .ok o
  | .bool _ :: rest => changeLoop o rest
  | x :: rest =>
    match extractSymbol x with
    | none => changeLoop o rest
    | some name =>
      match switchOn o name, rest with
      | some _, .bool false :: rest' => changeLoop o rest'
      | some o', rest => changeLoop o' rest
      | none, v :: rest' =>
        if name = "keywords" then changeLoop { o with keywords := optionValue v } rest' else .err .evalError
      | none, [] => .err .evalError

/-- `change_read_option_setting`, src/c/read.cc:143-263: booleans are off unless named; a `copy` that is on switches `positions` on.  An error
leaves the options as they were. -/
def change (o : Opts) (args : List Arg) : Res Unit × Opts :=
  if args = [] then (.ok (), o)
  else
    match changeLoop ⟨false, false, false, o.keywords⟩ args with
    | .ok o' => (.ok (), if o'.copy then { o' with positions := true } else o')
    | .err e => (.err e, o)
    | .abort => (.abort, o)
    | .ub => (.ub, o)
    | .oof => (.oof, o)

/-- `(read-options-interface lst)`, src/c/read.cc:266-287; an empty list changes nothing. -/
def interface (o : Opts) (args : List Arg) : Res (List Arg) × Opts :=
  match change o args with
  | (.ok _, o') => (.ok (setting o'), o')
  | (.err e, o') => (.err e, o')
  | (.abort, o') => (.abort, o')
  | (.ub, o') => (.ub, o')
  | (.oof, o') => (.oof, o')

/-- `(read-enable flag …)`: its macro, src/c/read.cc:513-517; the flags are evaluated. -/
def readEnable (o : Opts) (flags : List Arg) : Res (List Arg) × Opts := interface o (flags ++ setting o)

/-- `(read-disable flag …)`: its macro, src/c/read.cc:523-537; `memq` on symbols and booleans. -/
def readDisable (o : Opts) (flags : List Arg) : Res (List Arg) × Opts := interface o ((setting o).filter fun x => !flags.contains x)

/-- `(read-set! opt val)`: its macro, src/c/read.cc:503-507. -/
def readSet (o : Opts) (opt : String) (val : Arg) : Res (List Arg) × Opts := interface o (setting o ++ [.sym opt, val])

end Pscm.Misc
