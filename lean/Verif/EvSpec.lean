import Verif.EvExt
/-!
# Specification vocabulary for the evaluator

Independent of the helper functions of the model: the evaluation relation, lexical binding, module resolution,
and the inference rules of argument lists and sequences.
-/
namespace Pscm.Ev
variable {σ : Type}

/-- Evaluating the expression `e` in environment `env`, started in state `s`, ends with outcome `o` in state `s'`. -/
def Evals (P : Prims σ) (env : EnvId) (e : V) (s : St σ) (o : Out V) (s' : St σ) : Prop :=
  ∃ n, ev P n (.eval env e) s = some (o, s')

/-- The innermost frame of the chain starting at `e` that binds `x` is `i`, and it binds it to `v`. -/
inductive Binds (fr : List Frame) (x : Name) : EnvId → EnvId → V → Prop
  | here {e f v} : fr[e]? = some f → f.entries.lookup x = some v → Binds fr x e e v
  | up {e f p i v} : fr[e]? = some f → f.entries.lookup x = Option.none → f.parent = some p → Binds fr x p i v →
      Binds fr x e i v

/-- No frame of the chain starting at `e` binds `x`. -/
def Unbound (fr : List Frame) (x : Name) (e : EnvId) : Prop := ∀ i v, ¬ Binds fr x e i v

/-- The value of `x` in module `m` itself. -/
def ownValue (ms : List Modl) (x : Name) (m : Nat) : Option V := (ms[m]?).bind fun md => md.obarray.lookup x

/-- The modules searched for a variable of module `m`, in order: the module, its imports, the root module. -/
def searchOrder (ms : List Modl) (root m : Nat) : List Nat :=
  match ms[m]? with
  | some md => m :: md.uses ++ [root]
  | Option.none => []

/-- The value of the variable `x` in module `m`: the first module of the search order that has it. -/
def moduleValue (ms : List Modl) (root m : Nat) (x : Name) : Option V :=
  (searchOrder ms root m).findSome? (ownValue ms x)

/-- The module of environment `e`: the module pointer of the nearest frame of the chain that has one. -/
inductive ModuleOf (fr : List Frame) : EnvId → Nat → Prop
  | here {e f m} : fr[e]? = some f → f.modl = some m → ModuleOf fr e m
  | up {e f p m} : fr[e]? = some f → f.modl = Option.none → f.parent = some p → ModuleOf fr p m → ModuleOf fr e m

/-- No frame and no module binds `x` to a macro: the keyword `x` has its standard meaning. -/
def NoMacro (s : St σ) (x : Name) : Prop :=
  (∀ f ∈ s.frames, ∀ v, (x, v) ∈ f.entries → isMacro v = false) ∧
  (∀ m ∈ s.mods, ∀ v, (x, v) ∈ m.obarray → isMacro v = false)

/-- Evaluating the expressions `xs` in `env` from left to right gives the list of their values, or stops at the first one
that does not return. -/
inductive ArgsEval (E : EnvId → V → St σ → Out V → St σ → Prop) (env : EnvId) :
    List V → St σ → Out (List V) → St σ → Prop
  | nil {s} : ArgsEval E env [] s (.ok []) s
  | fail {x xs s e s'} : E env x s (.stop e) s' → ArgsEval E env (x :: xs) s (.stop e) s'
  | failTail {x xs s v s1 e s'} : E env x s (.ok v) s1 → ArgsEval E env xs s1 (.stop e) s' →
      ArgsEval E env (x :: xs) s (.stop e) s'
  | cons {x xs s v s1 vs s'} : E env x s (.ok v) s1 → ArgsEval E env xs s1 (.ok vs) s' →
      ArgsEval E env (x :: xs) s (.ok (v :: vs)) s'

/-- Evaluating the non-empty sequence `xs` in order, with the value of the last one. -/
inductive SeqEval (E : EnvId → V → St σ → Out V → St σ → Prop) (env : EnvId) :
    List V → St σ → Out V → St σ → Prop
  | last {x s o s'} : E env x s o s' → SeqEval E env [x] s o s'
  | next {x y xs s v s1 o s'} : E env x s (.ok v) s1 → SeqEval E env (y :: xs) s1 o s' →
      SeqEval E env (x :: y :: xs) s o s'
  | fail {x y xs s e s'} : E env x s (.stop e) s' → SeqEval E env (x :: y :: xs) s (.stop e) s'

end Pscm.Ev
