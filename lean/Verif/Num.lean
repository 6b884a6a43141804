import Verif.Basic
/-!
# Numbers — model of `src/c/number.cc`

An exact integer is an `Int` (the C++ `int64_t` stored in `SCM::value`); every arithmetic operation that
C++ performs on `int64_t` goes through `i64`, which yields `ub` when the mathematical result does not fit.

A `double` is modelled by its mathematical value (`Dbl`).  The conversion from `int64_t` and all
comparisons are concrete; `+ - * /`, negation and `sqrt` on doubles are an uninterpreted parameter
(`FArith`): nothing is assumed about them.
-/
namespace Pscm

/-- A C++ `double`, by value: `fin neg m e` is `(-1)^neg * m * 2^e`.  (Simplification: a value may have
several representations; all functions below depend on the value only.) -/
inductive Dbl
  | nan
  | inf (neg : Bool)
  | fin (neg : Bool) (m : Nat) (e : Int)
  deriving DecidableEq, Repr

namespace Dbl

/-- Integer value of `fin neg m e` in units of `2^base`, for `base ≤ e`. -/
def scaled (neg : Bool) (m : Nat) (e base : Int) : Int :=
  (if neg then -1 else 1) * (m : Int) * (2 : Int) ^ (e - base).toNat

/-- C++ `a == b` on doubles (IEEE: NaN is unequal to everything). -/
def eq : Dbl → Dbl → Bool
  | .nan, _ => false
  | _, .nan => false
  | .inf a, .inf b => a == b
  | .inf _, .fin .. => false
  | .fin .., .inf _ => false
  | .fin n1 m1 e1, .fin n2 m2 e2 =>
    scaled n1 m1 e1 (min e1 e2) == scaled n2 m2 e2 (min e1 e2)

/-- C++ `a < b` on doubles. -/
def lt : Dbl → Dbl → Bool
  | .nan, _ => false
  | _, .nan => false
  | .inf a, .inf b => a && !b
  | .inf a, .fin .. => a
  | .fin .., .inf b => !b
  | .fin n1 m1 e1, .fin n2 m2 e2 =>
    scaled n1 m1 e1 (min e1 e2) < scaled n2 m2 e2 (min e1 e2)

/-- C++ `a <= b` on doubles. -/
def le (a b : Dbl) : Bool := lt a b || eq a b

/-- Round a natural number to 53 significant bits, ties to even: returns mantissa and exponent. -/
def roundNat (a : Nat) : Nat × Nat :=
  if a < 2 ^ 53 then (a, 0)
  else
    let e := Nat.log2 a - 52
    let q := a / 2 ^ e
    let r := a % 2 ^ e
    let half := 2 ^ (e - 1)
    let up := decide (half < r) || (r == half && q % 2 == 1)
    (if up then q + 1 else q, e)

/-- The C++ conversion `(double)(int64_t)n` (round to nearest, ties to even). -/
def ofInt (n : Int) : Dbl :=
  let p := roundNat n.natAbs
  .fin (decide (n < 0)) p.1 (p.2 : Int)

/-- The C++ conversion `(int64_t)d`: truncation, undefined when the value does not fit. -/
def toI64 : Dbl → Res Int
  | .nan => .ub
  | .inf _ => .ub
  | .fin neg m e =>
    let a : Int := if 0 ≤ e then (m : Int) * 2 ^ e.toNat else ((m / 2 ^ (-e).toNat : Nat) : Int)
    i64 (if neg then -a else a)

/-- `0.0` -/
def zero : Dbl := .fin false 0 0

end Dbl

/-- Floating-point arithmetic of the platform (uninterpreted). -/
structure FArith where
  add : Dbl → Dbl → Dbl
  sub : Dbl → Dbl → Dbl
  mul : Dbl → Dbl → Dbl
  div : Dbl → Dbl → Dbl
  neg : Dbl → Dbl
  sqrt : Dbl → Dbl

/-- The argument of a numeric builtin, by `SCM::type`: NUM, FLOAT, RATIO, or any other type. -/
inductive NumV
  | int (n : Int)
  | flo (d : Dbl)
  | ratio (num den : Int)
  | other
  deriving DecidableEq, Repr

namespace NumV

/-- `is_num` (src/c/pscm.h). -/
def isNum : NumV → Bool | .int _ => true | _ => false
/-- `is_float` (src/c/pscm.h). -/
def isFloat : NumV → Bool | .flo _ => true | _ => false
/-- `is_ratio` (src/c/pscm.h). -/
def isRatio : NumV → Bool | .ratio _ _ => true | _ => false

end NumV

variable (F : FArith)

/-- `scm_to_double`, src/c/pscm.h:295-307 (a non-number converts to 0.0). -/
def scmToDouble : NumV → Dbl
  | .flo d => d
  | .int n => Dbl.ofInt n
  | .ratio n d => F.div (Dbl.ofInt n) (Dbl.ofInt d)
  | .other => Dbl.zero

/-- `needs_float_promotion`, src/c/number.cc:82-84. -/
def needsFloat (a b : NumV) : Bool := a.isFloat || b.isFloat

/-- The integer branch of `BinaryOperator::run`, src/c/number.cc:103-118: asserts that both operands are
NUM (Debug build: abort otherwise). -/
def binInt {α : Type} (op : Int → Int → Res α) (a b : NumV) : Res α :=
  match a, b with
  | .int x, .int y => op x y
  | _, _ => .abort

/-- `scm_c_add_number`, src/c/number.cc:211-219. -/
def scmAdd (a b : NumV) : Res NumV :=
  if needsFloat a b then .ok (.flo (F.add (scmToDouble F a) (scmToDouble F b)))
  else binInt (fun x y => do let r ← i64 (x + y); pure (.int r)) a b

/-- `scm_c_minus_number`, src/c/number.cc:221-229. -/
def scmSub (a b : NumV) : Res NumV :=
  if needsFloat a b then .ok (.flo (F.sub (scmToDouble F a) (scmToDouble F b)))
  else binInt (fun x y => do let r ← i64 (x - y); pure (.int r)) a b

/-- `scm_c_negate_number`, src/c/number.cc:232-245. -/
def scmNegate : NumV → Res NumV
  | .flo d => .ok (.flo (F.neg d))
  | .int n => do let r ← i64 (-n); pure (.int r)
  | _ => .err .evalError

/-- The `while` loop of the static `gcd`, src/c/number.cc:539-543, on non-negative operands.
`a % b` with `b ≠ 0` cannot overflow here because `0 ≤ a`. -/
def gcdLoop (a b : Nat) : Nat :=
  if _h : b = 0 then a else gcdLoop b (a % b)
termination_by b
decreasing_by exact Nat.mod_lt _ (Nat.pos_of_ne_zero ‹_›)

/-- `a < 0 ? -a : a` on `int64_t` (used at src/c/number.cc:497, 537, 538, 562, 595, 606). -/
def abs64 (a : Int) : Res Int := if a < 0 then i64 (-a) else .ok a

/-- The static helper `gcd`, src/c/number.cc:536-545. -/
def cGcd (a b : Int) : Res Int := do
  let a ← abs64 a
  let b ← abs64 b
  pure (gcdLoop a.toNat b.toNat : Nat)

/-- C++ `a / b` on `int64_t`: truncating; undefined for `b = 0` and for `-2^63 / -1`. -/
def div64 (a b : Int) : Res Int := if b = 0 then .ub else i64 (a.tdiv b)

/-- `scm_make_ratio`, src/c/number.cc:621-658. -/
def makeRatio (num den : Int) : Res NumV :=
  if den = 0 then .err .evalError
  else if num = 0 then .ok (.int 0)
  else do
    let (num, den) ← if den < 0 then do
        let n ← i64 (-num)
        let d ← i64 (-den)
        pure (n, d)
      else pure (num, den)
    let g ← cGcd num den
    let num ← div64 num g
    let den ← div64 den g
    if den = 1 then pure (.int num) else pure (.ratio num den)

/-- Numerator/denominator view used by `*` and `/`, src/c/number.cc:300-329 and 837-847. -/
def asFrac : NumV → Option (Int × Int)
  | .int n => some (n, 1)
  | .ratio n d => some (n, d)
  | _ => none

/-- `scm_c_mul_number`, src/c/number.cc:294-339. -/
def scmMul (a b : NumV) : Res NumV :=
  if a.isRatio || b.isRatio then
    match asFrac a, asFrac b with
    | some (n1, d1), some (n2, d2) => do
      let n ← i64 (n1 * n2)
      let d ← i64 (d1 * d2)
      makeRatio n d
    | _, _ => .ok (.flo (F.mul (scmToDouble F a) (scmToDouble F b)))
  else if needsFloat a b then .ok (.flo (F.mul (scmToDouble F a) (scmToDouble F b)))
  else binInt (fun x y => do let r ← i64 (x * y); pure (.int r)) a b

/-- `reduce`, src/c/pscm.h:702-710, as used for generic builtins (src/c/function.cc:76-82). -/
def reduceR {α : Type} (f : α → α → Res α) (init : α) : List α → Res α
  | [] => .ok init
  | x :: xs => do let r ← f init x; reduceR f r xs

/-- `(+ …)`: generic function with initial value 0, src/c/number.cc:991 and src/c/function.cc:76-82. -/
def plus (args : List NumV) : Res NumV := reduceR (scmAdd F) (.int 0) args

/-- `(* …)`: generic function with initial value 1, src/c/number.cc:994 and src/c/function.cc:76-82. -/
def times (args : List NumV) : Res NumV := reduceR (scmMul F) (.int 1) args

/-- `scm_c_minus_wrapper`, src/c/number.cc:248-292. -/
def minus : List NumV → Res NumV
  | [] => .err .evalError
  | [x] => if !x.isNum && !x.isFloat then .err .evalError else scmNegate F x
  | x :: y :: rest => reduceR (scmSub F) x (y :: rest)

/-- The five comparison builtins `=`, `<`, `>`, `<=`, `>=`. -/
inductive CmpOp | eq | lt | gt | le | ge
  deriving DecidableEq, Repr

/-- `scm_c_eq_number`, `scm_c_lt_number`, `scm_c_gt_number`, `scm_c_lt_eq_number`, `scm_c_gt_eq_number`,
src/c/number.cc:201-209, 341-375. -/
def cmpNumber (op : CmpOp) (a b : NumV) : Res Bool :=
  if needsFloat a b then
    let x := scmToDouble F a
    let y := scmToDouble F b
    .ok (match op with
      | .eq => x.eq y
      | .lt => x.lt y
      | .gt => y.lt x
      | .le => x.le y
      | .ge => y.le x)
  else binInt (fun x y => .ok (match op with
      | .eq => decide (x = y)
      | .lt => decide (x < y)
      | .gt => decide (x > y)
      | .le => decide (x ≤ y)
      | .ge => decide (x ≥ y))) a b

/-- The chain loop shared by `scm_c_eq_chain` … `scm_c_ge_chain`, src/c/number.cc:389-398 (and the four
copies up to 491): compares neighbours left to right, stops at the first failure. -/
def chainLoop (op : CmpOp) : List NumV → Res Bool
  | [] => .ok true
  | [_] => .ok true
  | a :: b :: rest => do
    let r ← cmpNumber F op a b
    if r then chainLoop op (b :: rest) else pure false

/-- `scm_c_eq_chain` … `scm_c_ge_chain`, src/c/number.cc:378-491: no or one argument gives `#t`, two arguments
one comparison, more a loop. -/
def cmpChain (op : CmpOp) : List NumV → Res Bool
  | [] => .ok true
  | [_] => .ok true
  | [a, b] => cmpNumber F op a b
  | args => chainLoop F op args

/-- `scm_c_is_negative`, src/c/number.cc:9-19. -/
def isNegativeP (a : NumV) : Res Bool :=
  if !a.isNum && !a.isFloat then .err .evalError else .ok ((scmToDouble F a).lt Dbl.zero)

/-- `scm_c_is_positive`, src/c/number.cc:21-31. -/
def isPositiveP (a : NumV) : Res Bool :=
  if !a.isNum && !a.isFloat then .err .evalError else .ok (Dbl.zero.lt (scmToDouble F a))

/-- `scm_c_is_zero`, src/c/number.cc:69-79. -/
def isZeroP (a : NumV) : Res Bool :=
  if !a.isNum && !a.isFloat && !a.isRatio then .err .evalError else .ok ((scmToDouble F a).eq Dbl.zero)

/-- `scm_c_is_odd`, src/c/number.cc:33-49. -/
def isOddP (a : NumV) : Res Bool :=
  if !a.isNum && !a.isFloat then .err .evalError
  else do
    let val := scmToDouble F a
    let n ← val.toI64
    if !(val.eq (Dbl.ofInt n)) then .err .evalError else pure (decide (n.tmod 2 ≠ 0))

/-- `scm_c_is_even`, src/c/number.cc:51-67. -/
def isEvenP (a : NumV) : Res Bool :=
  if !a.isNum && !a.isFloat then .err .evalError
  else do
    let val := scmToDouble F a
    let n ← val.toI64
    if !(val.eq (Dbl.ofInt n)) then .err .evalError else pure (decide (n.tmod 2 = 0))

/-- `scm_c_abs`, src/c/number.cc:494-502. -/
def absP : NumV → Res NumV
  | .int n => do let r ← abs64 n; pure (.int r)
  | _ => .abort

/-- Loop of `scm_c_gcd`, src/c/number.cc:565-575. -/
def gcdArgs (acc : Int) : List NumV → Res NumV
  | [] => .ok (.int acc)
  | .int v :: rest => do let r ← cGcd acc v; gcdArgs r rest
  | _ :: _ => .err .evalError

/-- `scm_c_gcd`, src/c/number.cc:549-578. -/
def gcdP : List NumV → Res NumV
  | [] => .ok (.int 0)
  | .int v :: rest => do let a ← abs64 v; gcdArgs a rest
  | _ :: _ => .err .evalError

/-- Loop of `scm_c_lcm`, src/c/number.cc:598-615 (`g = 0` returns 0 at once, without looking at the
remaining arguments). -/
def lcmArgs (acc : Int) : List NumV → Res NumV
  | [] => .ok (.int acc)
  | .int v :: rest => do
    let v ← abs64 v
    let g ← cGcd acc v
    if g = 0 then pure (.int 0)
    else do
      let q ← div64 acc g
      let r ← i64 (q * v)
      lcmArgs r rest
  | _ :: _ => .err .evalError

/-- `scm_c_lcm`, src/c/number.cc:582-618. -/
def lcmP : List NumV → Res NumV
  | [] => .ok (.int 1)
  | .int v :: rest => do let a ← abs64 v; lcmArgs a rest
  | _ :: _ => .err .evalError

/-- Loop shared by `scm_c_max` / `scm_c_min`, src/c/number.cc:675-692, 717-734.
`isMax` selects `val > max_val` or `val < min_val`.  Returns the value and the `all_int` flag. -/
def extremeLoop (isMax : Bool) (cur : Dbl) (allInt : Bool) : List NumV → Res (Dbl × Bool)
  | [] => .ok (cur, allInt)
  | a :: rest =>
    if !a.isNum && !a.isFloat && !a.isRatio then .err .evalError
    else
      let allInt := if !a.isNum then false else allInt
      let val := scmToDouble F a
      let better := if isMax then cur.lt val else val.lt cur
      extremeLoop isMax (if better then val else cur) allInt rest

/-- `scm_c_max` (`isMax = true`) and `scm_c_min`, src/c/number.cc:661-742. -/
def extremeP (isMax : Bool) : List NumV → Res NumV
  | [] => .err .evalError
  | first :: rest =>
    if !first.isNum && !first.isFloat && !first.isRatio then .err .evalError
    else do
      let (v, allInt) ← extremeLoop F isMax (scmToDouble F first) first.isNum rest
      if allInt then do
        let n ← v.toI64
        if v.eq (Dbl.ofInt n) then pure (.int n) else pure (.flo v)
      else pure (.flo v)

/-- The multiplication loop of `scm_c_expt`, src/c/number.cc:772-774: `k` more multiplications. -/
def powLoop (base : Int) : Nat → Int → Res Int
  | 0, acc => .ok acc
  | k + 1, acc => do let r ← i64 (acc * base); powLoop base k r

/-- `scm_c_expt`, src/c/number.cc:744-796 (asserts both arguments are NUM). -/
def exptP (b e : NumV) : Res NumV :=
  match b, e with
  | .int n1, .int n2 =>
    if n1 = 0 ∧ n2 = 0 then .ok (.int 1)
    else if n1 = 0 then .ok (.int 0)
    else if n2 = 0 then .ok (.int 1)
    else do
      let m ← if n2 < 0 then i64 (-n2) else pure n2
      let ret ← powLoop n1 (m - 1).toNat n1
      if n2 < 0 then
        if ret = 1 then pure (.int 1)
        else if ret = -1 then pure (.int (-1))
        else pure (.int 0)
      else pure (.int ret)
  | _, _ => .abort

/-- The float loop entered when the first argument is a float, src/c/number.cc:849-866. -/
def divFloatLoop (acc : Dbl) : List NumV → Res NumV
  | [] => .ok (.flo acc)
  | a :: rest =>
    if !a.isNum && !a.isFloat && !a.isRatio then .err .evalError
    else
      let d := scmToDouble F a
      if d.eq Dbl.zero then .err .evalError else divFloatLoop (F.div acc d) rest

/-- The unchecked float loop entered when a later argument is a float, src/c/number.cc:886-892. -/
def divSwitchLoop (acc : Dbl) : List NumV → Dbl
  | [] => acc
  | a :: rest => divSwitchLoop (F.div acc (scmToDouble F a)) rest

/-- The exact loop, src/c/number.cc:869-905. -/
def divLoop (num den : Int) : List NumV → Res NumV
  | [] => makeRatio num den
  | a :: rest =>
    if !a.isNum && !a.isFloat && !a.isRatio then .err .evalError
    else match asFrac a with
      | none => .ok (.flo (divSwitchLoop F (F.div (Dbl.ofInt num) (Dbl.ofInt den)) (a :: rest)))
      | some (dn, dd) =>
        if dn = 0 then .err .evalError
        else do
          let num ← i64 (num * dd)
          let den ← i64 (den * dn)
          divLoop num den rest

/-- `scm_c_div`, src/c/number.cc:798-909. -/
def divP : List NumV → Res NumV
  | [] => .ok (.int 1)
  | [first] =>
    match first with
    | .int n => if n = 0 then .err .evalError else makeRatio 1 n
    | .ratio n d => if n = 0 then .err .evalError else makeRatio d n
    | .flo v => if v.eq Dbl.zero then .err .evalError else .ok (.flo (F.div (.fin false 1 0) v))
    | .other => .err .evalError
  | first :: rest =>
    match first with
    | .int n => divLoop F n 1 rest
    | .ratio n d => divLoop F n d rest
    | .flo v => divFloatLoop F v rest
    | .other => .err .evalError

/-- `scm_c_quotient`, src/c/number.cc:911-930. -/
def quotientP (a b : NumV) : Res NumV :=
  match a, b with
  | .int x, .int y => if y = 0 then .err .evalError else do let q ← div64 x y; pure (.int q)
  | _, _ => .err .evalError

/-- `scm_c_remainder`, src/c/number.cc:963-983. -/
def remainderP (a b : NumV) : Res NumV :=
  match a, b with
  | .int x, .int y =>
    if y = 0 then .err .evalError
    else do
      let m ← div64 x y
      let p ← i64 (y * m)
      let r ← i64 (x - p)
      pure (.int r)
  | _, _ => .err .evalError

/-- `scm_c_modulo`, src/c/number.cc:932-961. -/
def moduloP (a b : NumV) : Res NumV :=
  match a, b with
  | .int x, .int y =>
    if y = 0 then .err .evalError
    else do
      let m ← div64 x y
      let p ← i64 (y * m)
      let r ← i64 (x - p)
      let r ← if r > 0 ∧ y < 0 then i64 (r + y)
              else if r < 0 ∧ y > 0 then i64 (r + y)
              else pure r
      pure (.int r)
  | _, _ => .err .evalError

end Pscm
