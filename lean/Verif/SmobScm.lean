import Verif.Misc
/-!
# Smobs from Scheme: model of `scm-make-smob-type`, `scm-make-smob`, `scm-smob-data`, `scm-smob?`

src/c/smob.cc:325-408, on top of the C interface of `Verif.Misc`.  The arguments are integers, strings, smobs or anything else.
-/
namespace Pscm.SmS
open Pscm.Misc

/-- A Scheme value, as far as these procedures distinguish them: `is_num`, `is_str`, `is_smob`. -/
inductive W
  | num (n : Int)
  | str (b : List UInt8)
  | smob (i : Nat)
  | other (k : Nat)
  deriving DecidableEq, Repr

/-- `scm_c_make_smob_type`, src/c/smob.cc:333-359: the name is copied with a NUL at its end and used as a C string; `(size_t)size_val` is the size modulo 2^64. -/
def makeType (s : Smobs) (name size : W) : Res W × Smobs :=
  match name with
  | .str b =>
    match size with
    | .num z =>
      match makeSmobType s (b.takeWhile (· ≠ 0)) (z % 2 ^ 64).toNat with
      | (.ok t, s') => (.ok (.num t), s')
      | (.err e, s') => (.err e, s')
      | (.abort, s') => (.abort, s')
      | (.ub, s') => (.ub, s')
      | (.oof, s') => (.oof, s')
    | _ => (.err .evalError, s)
  | _ => (.err .evalError, s)

/-- `scm_c_make_smob`, src/c/smob.cc:361-380, with `scm_make_smob_with_data` (173-193). -/
def make (s : Smobs) (tag data : W) : Res W × Smobs :=
  match tag with
  | .num t =>
    match data with
    | .num n =>
      match makeSmob s t n with
      | (.ok i, s') => (.ok (.smob i), s')
      | (.err e, s') => (.err e, s')
      | (.abort, s') => (.abort, s')
      | (.ub, s') => (.ub, s')
      | (.oof, s') => (.oof, s')
    | _ => (.err .evalError, s)
  | _ => (.err .evalError, s)

/-- `scm_c_smob_data`, src/c/smob.cc:383-404. -/
def data (s : Smobs) (w : W) : Res W :=
  match w with
  | .smob i => do
    let n ← scmSmobData s i
    pure (.num n)
  | _ => .err .evalError

/-- `scm_c_smob_p`, src/c/smob.cc:406-408. -/
def isSmob : W → Bool
  | .smob _ => true
  | _ => false

/-- The calls that change something. -/
inductive Call
  | makeType (name size : W)
  | make (tag data : W)
  deriving DecidableEq, Repr

/-- One call. -/
def Call.run (s : Smobs) : Call → Res W × Smobs
  | .makeType n z => SmS.makeType s n z
  | .make t d => SmS.make s t d

end Pscm.SmS
