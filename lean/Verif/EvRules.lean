import Verif.EvSpec
/-!
# Inference rules: what each construct of the language is supposed to do

Every rule is stated over an evaluation relation `E env e s o s'` ("evaluating `e` in `env` from state `s` ends with outcome `o`
in state `s'`") and mentions no function of the evaluator.
-/
namespace Pscm.Ev
variable {σ : Type}

/-- The type of evaluation relations. -/
abbrev ERel (σ : Type) := EnvId → V → St σ → Out V → St σ → Prop

/-- `(if c a b)`, `(if c a)`. -/
inductive IfRule (E : ERel σ) (env : EnvId) (c a : V) : Option V → St σ → Out V → St σ → Prop
  | yes {b s v s1 o s'} : E env c s (.ok v) s1 → v ≠ .bool false → E env a s1 o s' → IfRule E env c a b s o s'
  | no {b s s1 o s'} : E env c s (.ok (.bool false)) s1 → E env b s1 o s' → IfRule E env c a (some b) s o s'
  | unspecified {s s'} : E env c s (.ok (.bool false)) s' → IfRule E env c a Option.none s (.ok .none) s'
  | fail {b s e s'} : E env c s (.stop e) s' → IfRule E env c a b s (.stop e) s'

/-- `(and x ...)`. -/
inductive AndRule (E : ERel σ) (env : EnvId) : List V → St σ → Out V → St σ → Prop
  | nil {s} : AndRule E env [] s (.ok (.bool true)) s
  | last {x s o s'} : E env x s o s' → AndRule E env [x] s o s'
  | short {x y xs s s'} : E env x s (.ok (.bool false)) s' → AndRule E env (x :: y :: xs) s (.ok (.bool false)) s'
  | next {x y xs s v s1 o s'} : E env x s (.ok v) s1 → v ≠ .bool false → AndRule E env (y :: xs) s1 o s' →
      AndRule E env (x :: y :: xs) s o s'
  | fail {x y xs s e s'} : E env x s (.stop e) s' → AndRule E env (x :: y :: xs) s (.stop e) s'

/-- `(or x ...)`. -/
inductive OrRule (E : ERel σ) (env : EnvId) : List V → St σ → Out V → St σ → Prop
  | nil {s} : OrRule E env [] s (.ok (.bool false)) s
  | last {x s o s'} : E env x s o s' → OrRule E env [x] s o s'
  | short {x y xs s v s'} : E env x s (.ok v) s' → v ≠ .bool false → OrRule E env (x :: y :: xs) s (.ok v) s'
  | next {x y xs s s1 o s'} : E env x s (.ok (.bool false)) s1 → OrRule E env (y :: xs) s1 o s' →
      OrRule E env (x :: y :: xs) s o s'
  | fail {x y xs s e s'} : E env x s (.stop e) s' → OrRule E env (x :: y :: xs) s (.stop e) s'

/-! ## Procedures -/

/-- A parameter list: required parameters and an optional rest parameter. -/
def paramList : List Name → Option Name → V
  | [], Option.none => .nil
  | [], some r => .sym r
  | p :: ps, r => .pair (.sym p) (paramList ps r)

/-- The bindings of a call: parameter `i` to argument `i`, the rest parameter to the list of the remaining arguments (newest
binding first). -/
def callBindings (ps : List Name) (rest : Option Name) (vs : List V) : List (Name × V) :=
  (ps.zip vs ++ (match rest with
    | some r => [(r, listOf (vs.drop ps.length))]
    | Option.none => [])).reverse

/-- The argument count fits. -/
def CountOk (ps : List Name) (rest : Option Name) (k : Nat) : Prop :=
  match rest with
  | some _ => ps.length ≤ k
  | Option.none => k = ps.length

/-- Builtins that are part of the evaluator and have rules of their own. -/
def interpreterNames : List Name :=
  ["values", "force", "catch", "throw", "eval", "current-module", "set-current-module", "module-ref", "module-bound?",
   "module-use!", "apply", "map", "map-in-order", "call/cc", "call-with-current-continuation", "load", "primitive-load",
   "macroexpand-1", "macroexpand", "resolve-module", "module?", "defined?", "set-module-binder!", "module-map", "procedure-name"]

/-- What a builtin does, from the state `s`: it returns or raises, or it evaluates an expression at top level and goes on with its value; when
that evaluation does not return, neither does the builtin. -/
inductive Runs (E : EnvId → V → St σ → Out V → St σ → Prop) : PrimRes σ → St σ → Out V → St σ → Prop
  | ret {v x s} : Runs E (.done (.ok v) x) s (.ok v) { s with ext := x }
  | raise {k d x s} : Runs E (.done (.raise k d) x) s (.stop (throwStop s k d)) { s with ext := x }
  | back {e x k s v s1 o s'} : E 0 e { s with ext := x } (.ok v) s1 → Runs E (k v s1.ext) s1 o s' → Runs E (.eval e x k) s o s'
  | backStop {e x k s t s1} : E 0 e { s with ext := x } (.stop t) s1 → Runs E (.eval e x k) s (.stop t) s1

/-- Calling the procedure `f` on the argument *values* `vs`: a closure evaluates its body in a fresh frame below its
environment with the parameters bound by position; a builtin computes on the values. -/
inductive Applies (P : Prims σ) : V → List V → St σ → Out V → St σ → Prop
  | closure {ps rest body penv f vs s o s'} :
      (ps ++ rest.toList).Nodup → CountOk ps rest vs.length → s.frames[penv]? = some f →
      SeqEval (Evals P) s.frames.length body
        { s with frames := s.frames ++ [⟨callBindings ps rest vs, some penv, f.modl⟩] } o s' →
      Applies P (.proc (paramList ps rest) (listOf body) penv) vs s o s'
  | builtin {n a vs s o s'} : n ∉ interpreterNames → (a = (vs.length : Int) ∧ vs.length ≤ 3 ∨ a = -2) →
      Runs (Evals P) (P.call n vs s.ext) s o s' → Applies P (.func n a) vs s o s'

end Pscm.Ev

namespace Pscm.Ev
variable {σ : Type}

/-! ## cond and case -/

/-- The clauses of `cond`: `(test body ...)` with a non-empty body, `(test => f)`, `(test)`, `(else body ...)`. -/
inductive Clause
  | test (t b : V) (bs : List V)
  | arrow (t f : V)
  | only (t : V)
  | els (b : V) (bs : List V)

/-- The clause as program text. -/
def Clause.toV : Clause → V
  | .test t b bs => listOf (t :: b :: bs)
  | .arrow t f => listOf [t, .sym "=>", f]
  | .only t => listOf [t]
  | .els b bs => listOf (.sym "else" :: b :: bs)

/-- The text of a clause is to be read as that clause: a test is not the keyword `else`, a body does not begin with `=>`. -/
def Clause.Proper : Clause → Prop
  | .test t b _ => t ≠ .sym "else" ∧ b ≠ .sym "=>"
  | .arrow t _ => t ≠ .sym "else"
  | .only t => t ≠ .sym "else"
  | .els _ _ => True

/-- `(cond clause ...)`; `A` is procedure application, `Lit s` says that `=>` is not a variable. -/
inductive CondRule (E : ERel σ) (A : V → List V → St σ → Out V → St σ → Prop) (Lit : St σ → Prop) (env : EnvId) :
    List Clause → St σ → Out V → St σ → Prop
  | noClause {s} : CondRule E A Lit env [] s (.ok .none) s
  | els {b bs cs s o s'} : SeqEval E env (b :: bs) s o s' → CondRule E A Lit env (.els b bs :: cs) s o s'
  | test {t b bs cs s v s1 o s'} : E env t s (.ok v) s1 → v ≠ .bool false → SeqEval E env (b :: bs) s1 o s' →
      CondRule E A Lit env (.test t b bs :: cs) s o s'
  | only {t cs s v s'} : E env t s (.ok v) s' → v ≠ .bool false → CondRule E A Lit env (.only t :: cs) s (.ok v) s'
  | arrow {t fe cs s v s1 f s2 o s'} : E env t s (.ok v) s1 → v ≠ .bool false → Lit s1 → E env fe s1 (.ok f) s2 →
      A f [v] s2 o s' → CondRule E A Lit env (.arrow t fe :: cs) s o s'
  | arrowFail {t fe cs s v s1 e s'} : E env t s (.ok v) s1 → v ≠ .bool false → Lit s1 → E env fe s1 (.stop e) s' →
      CondRule E A Lit env (.arrow t fe :: cs) s (.stop e) s'
  | skip {c t cs s s1 o s'} : (match c with
        | .test t' _ _ => t' = t
        | .arrow t' _ => t' = t
        | .only t' => t' = t
        | .els _ _ => False) →
      E env t s (.ok (.bool false)) s1 → CondRule E A Lit env cs s1 o s' → CondRule E A Lit env (c :: cs) s o s'
  | fail {c t cs s e s'} : (match c with
        | .test t' _ _ => t' = t
        | .arrow t' _ => t' = t
        | .only t' => t' = t
        | .els _ _ => False) →
      E env t s (.stop e) s' → CondRule E A Lit env (c :: cs) s (.stop e) s'

/-- The data that `case` compares by identity of value: numbers, characters, symbols, booleans, `()`. -/
def Atomic : V → Prop
  | .num _ => True
  | .chr _ => True
  | .sym _ => True
  | .bool _ => True
  | .nil => True
  | _ => False

/-- The clauses of `case`: `((datum ...) body ...)` and `(else body ...)`. -/
inductive CaseClause
  | data (ds : List V) (b : V) (bs : List V)
  | els (b : V) (bs : List V)

def CaseClause.toV : CaseClause → V
  | .data ds b bs => .pair (listOf ds) (listOf (b :: bs))
  | .els b bs => listOf (.sym "else" :: b :: bs)

/-- Selecting the clause for a key. -/
inductive CaseRule (E : ERel σ) (env : EnvId) (key : V) : List CaseClause → St σ → Out V → St σ → Prop
  | noClause {s} : CaseRule E env key [] s (.ok (.bool false)) s
  | els {b bs cs s o s'} : SeqEval E env (b :: bs) s o s' → CaseRule E env key (.els b bs :: cs) s o s'
  | hit {ds b bs cs s o s'} : key ∈ ds → SeqEval E env (b :: bs) s o s' → CaseRule E env key (.data ds b bs :: cs) s o s'
  | miss {ds b bs cs s o s'} : key ∉ ds → CaseRule E env key cs s o s' → CaseRule E env key (.data ds b bs :: cs) s o s'

end Pscm.Ev
