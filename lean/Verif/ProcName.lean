import Verif.EvStep
/-!
# The names of procedures

The evaluator model (`EvStep`) has no identity of procedures; the name of a procedure is a field of the object that `define` sets once.  This model keeps the
objects and the events of a program that make procedures or may name them.  Everything else a program does (calls, `set!`, passing values around, storing them in
lists) leaves the field alone: `proc->name` is assigned in no other place (src/c/define.cc:18, 155 and the constructor, src/c/pscm.h:172-187).
-/
namespace Pscm.PN
open Pscm.Ev (V Name)

/-- `SCM_Procedure` (src/c/pscm.h:172-187): the name, null for a procedure that `lambda` or `delay` made.  The other fields are left out. -/
structure Proc where
  name : Option Name
  deriving DecidableEq, Repr

/-- The values that matter here: a procedure object (by its address), a builtin (`SCM_Function`, not `is_proc`), anything else. -/
inductive Value
  | proc (a : Nat)
  | builtin (n : Name) (generic : Bool)
  | other
  deriving DecidableEq, Repr

/-- Answers of the forms. -/
inductive Ans
  | proc (a : Nat)
  | sym (x : Name)
  | false
  | unspecified
  | error
  deriving DecidableEq, Repr

/-- The events: the evaluation of a `lambda` (also the one `delay` makes, src/c/delay.cc:20), of `(define x e)` where `e` has the value `v`, of
`(define (f ...) body ...)` and its curried form, `key` being what follows the word `define`, of `(set! x e)`, and of `(procedure-name v)`. -/
inductive Event
  | lambda
  | define (x : Name) (v : Value)
  | defun (key body : V)
  | set (x : Name) (v : Value)
  | ask (v : Value)

abbrev Heap := List Proc

/-- `make_proc` (src/c/pscm.h:172-187): a new object. -/
def makeProc (h : Heap) (name : Option Name) : Heap × Nat := (h ++ [⟨name⟩], h.length)

/-- `if (is_proc(val)) { ...; if (proc->name == nullptr) proc->name = varname; }` (src/c/define.cc:15-21, 152-158). -/
def nameIfNone (h : Heap) (v : Value) (x : Name) : Heap :=
  match v with
  | .proc a =>
    match h[a]? with
    | some p => if p.name.isNone then h.set a ⟨some x⟩ else h
    | none => h
  | _ => h

/-- `scm_c_procedure_name` (src/c/procedure.cc:266-276). -/
def procedureName (h : Heap) : Value → Ans
  | .proc a =>
    match h[a]? with
    | some ⟨some x⟩ => .sym x
    | some ⟨none⟩ => .false
    | none => .error
  | _ => .error

/-- What `print_ast` prints for a value before the parameters (src/c/print.cc:53-69), as a text. -/
def printed (h : Heap) : Value → String
  | .proc a =>
    match h[a]? with
    | some ⟨some x⟩ => "#<procedure " ++ x ++ " "
    | some ⟨none⟩ => "#<procedure #f "
    | none => ""
  | .builtin n generic => (if generic then "#<primitive-generic " else "#<builtin-func ") ++ n ++ ">"
  | .other => ""

/-- One event: `eval_lambda` (src/c/eval.cc:122-156), `eval_define` (src/c/define.cc:4-173; the currying loop is `Ev.curry`), `eval_set` (no effect on objects),
`procedure-name`. -/
def step (h : Heap) : Event → Heap × Ans
  | .lambda =>
    let (h, a) := makeProc h none
    (h, .proc a)
  | .define x v => (nameIfNone h v x, .unspecified)
  | .defun key body =>
    match Pscm.Ev.curry key body with
    | some (f, _, _) =>
      let (h, a) := makeProc h none
      (nameIfNone h (.proc a) f, .unspecified)
    | none => (h, .error)
  | .set _ _ => (h, .unspecified)
  | .ask v => (h, procedureName h v)

/-- A history. -/
def run (h : Heap) : List Event → Heap
  | [] => h
  | e :: es => run (step h e).1 es

end Pscm.PN
