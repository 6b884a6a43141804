import Verif.MemText
import Verif.Num
/-!
# The numeric builtins by name, on objects

`init_number` (src/c/number.cc:986-1009): the C function behind a name, for the number of arguments it is called with.  The functions read the numbers from the objects; the result is a
new number object or one of the booleans.  (Where the C code returns one of its arguments, e.g. `max`, the model makes a new object; the sums and products also make objects for the results
in between.  Numbers have no identity in the data of the specification.)
-/
namespace Pscm

/-- `_create_num` (src/c/number.cc:528-533), `scm_from_double` (src/c/pscm.h:282-288), the object made by `scm_make_ratio` (src/c/number.cc:621-648). -/
def newNum : NumV → M Obj
  | .int n => newObj (.num n)
  | .flo d => newObj (.flo d)
  | .ratio n d => newObj (.ratio n d)
  | .other => M.lift .ub

/-- The number a C function computes, as an object. -/
def numAnswer (r : Res NumV) : M Obj := do
  let a ← M.lift r
  newNum a

/-- The numeric view of the arguments. -/
def numArgs (xs : List Obj) : List NumV := xs.map fun o => o.v.toNumV

/-- The C function of a builtin on its arguments; `none`: another builtin or another number of arguments.  `init_number`, src/c/number.cc:986-1009. -/
def numMem (F : FArith) : String → List Obj → Option (M Obj)
  | "+", xs => some (numAnswer (plus F (numArgs xs)))
  | "*", xs => some (numAnswer (times F (numArgs xs)))
  | "-", xs => some (numAnswer (minus F (numArgs xs)))
  | "=", xs => some (charAnswer (cmpChain F .eq (numArgs xs)))
  | "<", xs => some (charAnswer (cmpChain F .lt (numArgs xs)))
  | ">", xs => some (charAnswer (cmpChain F .gt (numArgs xs)))
  | "<=", xs => some (charAnswer (cmpChain F .le (numArgs xs)))
  | ">=", xs => some (charAnswer (cmpChain F .ge (numArgs xs)))
  | "zero?", [a] => some (charAnswer (isZeroP F a.v.toNumV))
  | "positive?", [a] => some (charAnswer (isPositiveP F a.v.toNumV))
  | "negative?", [a] => some (charAnswer (isNegativeP F a.v.toNumV))
  | "even?", [a] => some (charAnswer (isEvenP F a.v.toNumV))
  | "odd?", [a] => some (charAnswer (isOddP F a.v.toNumV))
  | "quotient", [a, b] => some (numAnswer (quotientP a.v.toNumV b.v.toNumV))
  | "remainder", [a, b] => some (numAnswer (remainderP a.v.toNumV b.v.toNumV))
  | "modulo", [a, b] => some (numAnswer (moduloP a.v.toNumV b.v.toNumV))
  | "abs", [a] => some (numAnswer (absP a.v.toNumV))
  | "max", xs => some (numAnswer (extremeP F true (numArgs xs)))
  | "min", xs => some (numAnswer (extremeP F false (numArgs xs)))
  | "gcd", xs => some (numAnswer (gcdP (numArgs xs)))
  | "lcm", xs => some (numAnswer (lcmP (numArgs xs)))
  | _, _ => none

/-- The builtins of `memCall`, `textMem` and `numMem`: all those of the reference semantics. -/
def stdMem (F : FArith) (T : FText) (fuel : Nat) (name : String) (args : List Obj) : Option (M Obj) :=
  match dataMem F T fuel name args with
  | some m => some m
  | none => numMem F name args

end Pscm
