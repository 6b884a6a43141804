/-!
# Outcomes

Every modelled C++ function returns a `Res`: the different ways in which control leaves a C++
function of pscm are distinct outcomes, so that nothing is "totalised away".
-/
namespace Pscm

/-- The Scheme-visible errors.  All of them are exceptions that a Scheme `catch` can intercept.
* `evalError`  : `eval_error(...)` (src/c/error.cc:201-253), a `scm_throw` with the key `g_error_key`;
  the message text is abstracted away, because no modelled code inspects messages.
* `typeError`  : `type_error(...)` (src/c/error.cc:166-199); it ends in `eval_error`, so to a `catch` it has the
  same key as `evalError`; kept apart here only to record which check failed.
* `wrongArgs`  : `throw_wrong_number_of_args` (used by src/c/function.cc:29-75).
* `unbound`    : unbound variable (src/c/eval.cc:159-166), also an `eval_error`.
* `thrown k`   : a user-level `throw` with key identified by `k` (src/c/throw.cc:134-190). -/
inductive Err
  | evalError
  | typeError
  | wrongArgs
  | unbound
  | thrown (key : Nat)
  deriving DecidableEq, Repr

/-- Outcome of a modelled C++ function.
* `ok a`   normal return;
* `err e`  a Scheme error is raised (longjmp to a catch, or uncaught);
* `abort`  an `assert` fails or `exit`/`abort` is called (the Debug build keeps asserts);
* `ub`     C++ undefined behaviour (signed overflow, division overflow, wild or null access);
* `oof`    the fuel given to the model ran out: the C++ loop/recursion was still running. -/
inductive Res (α : Type) where
  | ok (a : α)
  | err (e : Err)
  | abort
  | ub
  | oof
  deriving DecidableEq, Repr

namespace Res

variable {α β γ : Type}

/-- Sequencing of outcomes (C++ statement sequencing: the first abnormal exit wins). -/
def bind : Res α → (α → Res β) → Res β
  | ok a, f => f a
  | err e, _ => err e
  | abort, _ => abort
  | ub, _ => ub
  | oof, _ => oof

instance : Monad Res where
  pure := ok
  bind := Res.bind

@[simp] theorem pure_eq (a : α) : (pure a : Res α) = ok a := rfl
@[simp] theorem bind_ok (a : α) (f : α → Res β) : (ok a >>= f) = f a := rfl
@[simp] theorem bind_err (e : Err) (f : α → Res β) : (err e >>= f) = err e := rfl
@[simp] theorem bind_abort (f : α → Res β) : ((abort : Res α) >>= f) = abort := rfl
@[simp] theorem bind_ub (f : α → Res β) : ((ub : Res α) >>= f) = ub := rfl
@[simp] theorem bind_oof (f : α → Res β) : ((oof : Res α) >>= f) = oof := rfl

theorem bind_assoc' (x : Res α) (f : α → Res β) (g : β → Res γ) :
    ((x >>= f) >>= g) = (x >>= fun a => f a >>= g) := by
  cases x <;> rfl

theorem bind_eq_ok {x : Res α} {f : α → Res β} {b : β} :
    (x >>= f) = ok b ↔ ∃ a, x = ok a ∧ f a = ok b := by
  cases x <;> simp

/-- The run finished (it neither ran out of fuel …). -/
def finished : Res α → Prop
  | oof => False
  | _ => True

end Res

/-- `x` is representable as a C++ `int64_t`. -/
def InI64 (x : Int) : Prop := -(2:Int)^63 ≤ x ∧ x < (2:Int)^63

instance (x : Int) : Decidable (InI64 x) := inferInstanceAs (Decidable (_ ∧ _))

/-- Result of a signed 64-bit operation whose mathematical result is `x`: undefined behaviour when it
does not fit (C++ signed overflow). -/
def i64 (x : Int) : Res Int := if InI64 x then .ok x else .ub

theorem i64_ok {x : Int} (h : InI64 x) : i64 x = .ok x := by simp [i64, h]
theorem i64_ub {x : Int} (h : ¬ InI64 x) : i64 x = .ub := by simp [i64, h]
theorem i64_eq_ok {x y : Int} : i64 x = .ok y ↔ InI64 x ∧ x = y := by
  unfold i64; split <;> simp_all

end Pscm
