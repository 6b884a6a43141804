import Verif.EvEnvProps
import Verif.EvFormProps
import Verif.NumProps
/-!
# C115: `+` and `*` take any number of arguments

`+` and `*` are registered with a two-argument function and an initial value (src/c/number.cc:991, 994, src/c/pscm.h:1053-1058); a call
combines its arguments with the initial value one by one from the left (src/c/function.cc:76-82, src/c/pscm.h:702-710).
-/
namespace Pscm
open Ev
variable {σ : Type}

/-- Combining the argument values one by one, from the left: each step applies the builtin to the value so far and the next argument;
the first step that does not return ends the whole. -/
inductive FoldRule (P : Prims σ) (name : Name) : V → List V → St σ → Out V → St σ → Prop
  | done {a s} : FoldRule P name a [] s (.ok a) s
  | step {a x xs s v s1 o s'} : Runs (Evals P) (P.call name [a, x] s.ext) s (.ok v) s1 → FoldRule P name v xs s1 o s' →
      FoldRule P name a (x :: xs) s o s'
  | fail {a x xs s t s1} : Runs (Evals P) (P.call name [a, x] s.ext) s (.stop t) s1 → FoldRule P name a (x :: xs) s (.stop t) s1

theorem reducePrim_of {P : Prims σ} {name : Name} {a : V} {vs : List V} {s s' : St σ} {o : Out V} (hn : name ∉ interpreterNames)
    (h : FoldRule P name a vs s o s') : reducePrim P (run P) name a vs s = some (o, s') := by
  induction h with
  | done => rfl
  | step h1 _ ih => simp only [reducePrim, bind_apply, callPrim_ext hn, extPrim_of h1, ih]
  | fail h1 => simp only [reducePrim, bind_apply, callPrim_ext hn, extPrim_of h1]

/-- C115: a call of a folding builtin evaluates the arguments from left to right, then combines their values with the initial value one
by one from the left; no number of arguments is an arity error. -/
theorem c115_fold (P : Prims σ) (env : EnvId) (name : Name) (xs vs : List V) (s s1 s' : St σ) (o : Out V)
    (hn : name ∉ interpreterNames) (hx : ArgsEval (Evals P) env xs s (.ok vs) s1) (hf : FoldRule P name (P.init name) vs s1 o s') :
    Evals P env (.pair (.func name (-1)) (listOf xs)) s o s' := by
  rw [evals_step]
  show evalFuncCall P (run P) env name _ (listOf xs) s = _
  have hn' := hn
  simp only [interpreterNames, List.mem_cons, not_or, List.not_mem_nil, not_false_eq_true, and_true] at hn'
  obtain ⟨_, _, _, _, _, _, _, _, _, _, h11, h12, h13, h14, h15, _, _, _, _, _, _, _, _, _, _⟩ := hn'
  simp only [evalFuncCall, isCallCC, h11, h12, h13, h14, h15, nodes_listOf]
  simp only [or_self, decide_false, Bool.or_self, Bool.false_eq_true, if_false, bind_apply, evalArgs_iff.2 hx, callFunc]
  rw [if_neg (by omega), if_pos trivial]
  exact reducePrim_of hn hf

/-- C115: an argument that does not return ends the call before anything is combined. -/
theorem c115_fold_stop (P : Prims σ) (env : EnvId) (name : Name) (xs : List V) (s s1 : St σ) (t : Stop)
    (hn : name ∉ interpreterNames) (hx : ArgsEval (Evals P) env xs s (.stop t) s1) :
    Evals P env (.pair (.func name (-1)) (listOf xs)) s (.stop t) s1 := by
  rw [evals_step]
  show evalFuncCall P (run P) env name _ (listOf xs) s = _
  have hn' := hn
  simp only [interpreterNames, List.mem_cons, not_or, List.not_mem_nil, not_false_eq_true, and_true] at hn'
  obtain ⟨_, _, _, _, _, _, _, _, _, _, h11, h12, h13, h14, h15, _, _, _, _, _, _, _, _, _, _⟩ := hn'
  simp only [evalFuncCall, isCallCC, h11, h12, h13, h14, h15, nodes_listOf]
  simp only [or_self, decide_false, Bool.or_self, Bool.false_eq_true, if_false, bind_apply, evalArgs_iff.2 hx]

/-! ## The evaluator with the number builtins of the number model -/

/-- The outcome of a number builtin as the outcome of a builtin of the evaluator, for exact integers. -/
def intOut : Res NumV → PrimOut
  | .ok (.int n) => .ok (.num n)
  | .ok _ => .abort
  | .err _ => .raise "error" .nil
  | .abort => .abort
  | .ub => .ub
  | _ => .abort

/-- On exact integers the builtins `+` and `*` of `P` are those of the number model (`scmAdd`, `scmMul`), with the registered initial
values. -/
structure Arithmetic (F : FArith) (P : Prims σ) : Prop where
  zero : P.init "+" = .num 0
  one : P.init "*" = .num 1
  add : ∀ a b x, P.call "+" [.num a, .num b] x = .done (intOut (scmAdd F (.int a) (.int b))) x
  mul : ∀ a b x, P.call "*" [.num a, .num b] x = .done (intOut (scmMul F (.int a) (.int b))) x

theorem foldRule_ints {P : Prims σ} {name : Name} {op : Int → Int → Int}
    (hc : ∀ a b x, InI64 (op a b) → P.call name [.num a, .num b] x = .done (.ok (.num (op a b))) x) (a : Int) (ns : List Int) (s : St σ)
    (h : ∀ k < ns.length, InI64 ((ns.take (k + 1)).foldl op a)) :
    FoldRule P name (.num a) (ns.map .num) s (.ok (.num (ns.foldl op a))) s := by
  induction ns generalizing a with
  | nil => exact .done
  | cons n ns ih =>
    have h0 : InI64 (op a n) := h 0 (by simp)
    refine .step (v := .num (op a n)) (s1 := s) ?_ (ih (op a n) fun k hk => h (k + 1) (by simp; omega))
    rw [hc a n s.ext h0]
    exact .ret (s := s)

/-- C115: `(+ e ...)` where the expressions evaluate to exact integers is their sum, whatever their number, if the sum of every
initial segment fits 64 bits; nothing else changes. -/
theorem c115_sum (F : FArith) (P : Prims σ) (hA : Arithmetic F P) (env : EnvId) (xs : List V) (ns : List Int) (s s1 : St σ)
    (hx : ArgsEval (Evals P) env xs s (.ok (ns.map .num)) s1) (hr : ∀ k ≤ ns.length, InI64 (ns.take k).sum) :
    Evals P env (.pair (.func "+" (-1)) (listOf xs)) s (.ok (.num ns.sum)) s1 := by
  refine c115_fold P env "+" xs _ s s1 s1 _ (by decide) hx ?_
  rw [hA.zero]
  have hc : ∀ a b x, InI64 (a + b) → P.call "+" [.num a, .num b] x = .done (.ok (.num (a + b))) x := by
    intro a b x hab
    rw [hA.add]
    simp [scmAdd, needsFloat, NumV.isFloat, binInt, i64_ok hab, intOut]
  have h := foldRule_ints (op := (· + ·)) hc 0 ns s1 fun k hk => by
    rw [foldl_add_eq, Int.zero_add]; exact hr (k + 1) (by omega)
  rw [foldl_add_eq, Int.zero_add] at h
  exact h

/-- C115: `(* e ...)` is the product. -/
theorem c115_product (F : FArith) (P : Prims σ) (hA : Arithmetic F P) (env : EnvId) (xs : List V) (ns : List Int) (s s1 : St σ)
    (hx : ArgsEval (Evals P) env xs s (.ok (ns.map .num)) s1) (hr : ∀ k ≤ ns.length, InI64 (Spec.prod (ns.take k))) :
    Evals P env (.pair (.func "*" (-1)) (listOf xs)) s (.ok (.num (Spec.prod ns))) s1 := by
  refine c115_fold P env "*" xs _ s s1 s1 _ (by decide) hx ?_
  rw [hA.one]
  have hc : ∀ a b x, InI64 (a * b) → P.call "*" [.num a, .num b] x = .done (.ok (.num (a * b))) x := by
    intro a b x hab
    rw [hA.mul]
    simp [scmMul, needsFloat, NumV.isFloat, NumV.isRatio, binInt, i64_ok hab, intOut]
  have h := foldRule_ints (op := (· * ·)) hc 1 ns s1 fun k hk => by
    rw [foldl_mul_eq, Int.one_mul]; exact hr (k + 1) (by omega)
  rw [foldl_mul_eq, Int.one_mul] at h
  exact h

/-! Non-vacuity: builtins that satisfy `Arithmetic`, and the call `(+ 1 2 (+ 3 4))`. -/

/-- The demonstration builtins with `+` and `*` of the number model. -/
def arithDemo : Prims Unit where
  call := fun name args u =>
    match name, args with
    | "+", [.num a, .num b] => .done (intOut (scmAdd exampleF (.int a) (.int b))) u
    | "*", [.num a, .num b] => .done (intOut (scmMul exampleF (.int a) (.int b))) u
    | _, _ => .done (.raise "wrong-type-arg" .nil) u
  init := fun n => if n = "*" then .num 1 else .num 0
  file := fun _ _ => .missing

theorem arithDemo_ok : Arithmetic exampleF arithDemo := ⟨rfl, rfl, fun _ _ _ => rfl, fun _ _ _ => rfl⟩

example : Evals arithDemo 0 (.pair (.func "+" (-1)) (listOf [.num 1, .num 2, listOf [.func "+" (-1), .num 3, .num 4]])) Demo.s0
    (.ok (.num 10)) Demo.s0 := by
  have inner : Evals arithDemo 0 (listOf [.func "+" (-1), .num 3, .num 4]) Demo.s0 (.ok (.num 7)) Demo.s0 :=
    c115_sum exampleF arithDemo arithDemo_ok 0 [.num 3, .num 4] [3, 4] Demo.s0 Demo.s0
      (.cons ⟨1, rfl⟩ (.cons ⟨1, rfl⟩ .nil)) (by decide)
  exact c115_sum exampleF arithDemo arithDemo_ok 0 _ [1, 2, 7] Demo.s0 Demo.s0
    (.cons ⟨1, rfl⟩ (.cons ⟨1, rfl⟩ (.cons inner .nil))) (by decide)

/-- `(*)` is 1 and `(+)` is 0. -/
example : Evals arithDemo 0 (.pair (.func "*" (-1)) (listOf [])) Demo.s0 (.ok (.num 1)) Demo.s0 ∧
    Evals arithDemo 0 (.pair (.func "+" (-1)) (listOf [])) Demo.s0 (.ok (.num 0)) Demo.s0 :=
  ⟨c115_product exampleF arithDemo arithDemo_ok 0 [] [] _ _ .nil (by decide),
   c115_sum exampleF arithDemo arithDemo_ok 0 [] [] _ _ .nil (by decide)⟩

end Pscm
