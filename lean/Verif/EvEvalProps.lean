import Verif.RefProps
import Verif.EvEnvProps
import Verif.EvFormProps
/-!
# C145: `(eval datum)` runs the datum as a program of the top level

The builtin is `scm_c_eval` (src/c/eval.cc:930-933), registered with one argument; the model is `Ev.callPrim` at `"eval"`.  Its comment in the
program says that the expression is evaluated "in the current environment": it is not (`c145_not_local`).
-/
namespace Pscm
open Pscm.Ev
variable {σ : Type} {P : Prims σ}

/-- The words `eval` and `quote` have their initial meaning in the state `s`, as seen from the environment `env`. -/
structure EvalMeant (P : Prims σ) (env : EnvId) (s : St σ) : Prop where
  root : s.cur = s.root
  builtin : Evals P env (.sym "eval") s (.ok (.func "eval" 1)) s
  noEval : NoMacro s "eval"
  noQuote : NoMacro s "quote"

/-- The expression `(eval x)`. -/
def evalOf (x : V) : V := listOf [.sym "eval", x]

/-- The expression `(quote x)`. -/
def quoteOf (x : V) : V := listOf [.sym "quote", x]

/-- A call of the builtin on expressions. -/
theorem evals_evalFunc {env : EnvId} {args : List V} {s s' : St σ} {o : Out V} :
    Evals P env (.pair (.func "eval" 1) (listOf args)) s o s' ↔
      (evalArgs (run P) env args >>= fun vs => callFunc P (run P) "eval" 1 vs) s = some (o, s') := by
  rw [evals_step]
  show evalFuncCall P (run P) env "eval" 1 (listOf args) s = _ ↔ _
  unfold evalFuncCall
  rw [if_neg (by decide), if_neg (by decide), if_neg (by decide), nodes_listOf]

theorem callFunc_eval (v : V) : callFunc P (run P) "eval" 1 [v] = run P (.eval 0 v) := by
  unfold callFunc
  rw [if_pos (by decide), if_pos (by rfl)]
  rfl

/-- **C145** `(eval x)`: the expression `x` is evaluated where the call stands, and its value is then evaluated in the global environment, whatever the
environment of the call; what the call does is what this evaluation does. -/
theorem c145_eval {env : EnvId} {x : V} {s s' : St σ} {o : Out V} (h : EvalMeant P env s) :
    Evals P env (evalOf x) s o s' ↔
      (∃ d s1, Evals P env x s (.ok d) s1 ∧ Evals P 0 d s1 o s') ∨ (∃ e, Evals P env x s (.stop e) s' ∧ o = .stop e) := by
  show Evals P env (.pair (.sym "eval") (listOf [x])) s o s' ↔ _
  rw [c38_operator_partial P env "eval" _ _ s s' o h.root h.noEval (by decide) (by decide) h.builtin, evals_evalFunc, bind_eq_some]
  constructor
  · rintro (⟨vs, s1, ha, hc⟩ | ⟨e, ha, rfl⟩)
    · cases evalArgs_iff.1 ha with
      | cons hx hn =>
        cases hn
        rw [callFunc_eval] at hc
        exact .inl ⟨_, _, hx, evals_iff.2 hc⟩
    · cases evalArgs_iff.1 ha with
      | fail hx => exact .inr ⟨_, hx, rfl⟩
      | failTail _ hn => cases hn
  · rintro (⟨d, s1, hx, hd⟩ | ⟨e, hx, rfl⟩)
    · exact .inl ⟨[d], s1, evalArgs_iff.2 (.cons hx .nil), by rw [callFunc_eval]; exact evals_iff.1 hd⟩
    · exact .inr ⟨e, evalArgs_iff.2 (.fail hx), rfl⟩

theorem evals_quote {env : EnvId} {x : V} {s s' : St σ} {o : Out V} (h : NoMacro s "quote") :
    Evals P env (quoteOf x) s o s' ↔ o = .ok x ∧ s' = s := by
  show Evals P env (.pair (.sym "quote") (listOf [x])) s o s' ↔ _
  rw [evals_form (f := .quote) h (by decide)]
  show some (Out.ok x, s) = some (o, s') ↔ _
  constructor
  · rintro ⟨⟩; exact ⟨rfl, rfl⟩
  · rintro ⟨rfl, rfl⟩; rfl

/-- **C145** Code is data: `(eval 'form)` in any environment does what `form` does at top level -- the same value, the same effects, the same error, and it
ends if and only if the form does. -/
theorem c145_quoted {env : EnvId} {form : V} {s s' : St σ} {o : Out V} (h : EvalMeant P env s) :
    Evals P env (evalOf (quoteOf form)) s o s' ↔ Evals P 0 form s o s' := by
  rw [c145_eval h]
  constructor
  · rintro (⟨d, s1, hx, hd⟩ | ⟨e, hx, _⟩)
    · obtain ⟨hd', rfl⟩ := (evals_quote h.noQuote).1 hx
      cases hd'
      exact hd
    · cases ((evals_quote h.noQuote).1 hx).1
  · exact fun hd => .inl ⟨form, s, (evals_quote h.noQuote).2 ⟨rfl, rfl⟩, hd⟩

/-- **C145** The environment of the call does not matter: two calls of `eval` on the same datum in the same state do the same. -/
theorem c145_anywhere {e1 e2 : EnvId} {form : V} {s s' : St σ} {o : Out V} (h1 : EvalMeant P e1 s) (h2 : EvalMeant P e2 s) :
    Evals P e1 (evalOf (quoteOf form)) s o s' ↔ Evals P e2 (evalOf (quoteOf form)) s o s' := by
  rw [c145_quoted h1, c145_quoted h2]

/-- **C145** A whole program in one datum: `(eval '(begin form ...))` is the program. -/
theorem c145_program {env : EnvId} {f : V} {fs : List V} {s s' : St σ} {o : Out V} (h : EvalMeant P env s) (hb : NoMacro s "begin") :
    Evals P env (evalOf (quoteOf (listOf (.sym "begin" :: f :: fs)))) s o s' ↔ SeqEval (Evals P) 0 (f :: fs) s o s' := by
  rw [c145_quoted h, c44_begin P 0 f fs s s' o hb]

/-- **C145** A program whose forms are given to `eval` one after the other, as long as no form changes the meaning of `eval` and `quote`. -/
theorem c145_forms {env : EnvId} {f : V} {fs : List V} {s s' : St σ} {o : Out V} (h : EvalMeant P env s)
    (hk : ∀ pre post v s1, f :: fs = pre ++ post → SeqEval (Evals P) 0 pre s (.ok v) s1 → EvalMeant P env s1) :
    SeqEval (Evals P) env ((f :: fs).map fun g => evalOf (quoteOf g)) s o s' ↔ SeqEval (Evals P) 0 (f :: fs) s o s' := by
  induction fs generalizing f s with
  | nil =>
    constructor
    · intro hs; cases hs with
      | last hx => exact .last ((c145_quoted h).1 hx)
    · intro hs; cases hs with
      | last hx => exact .last ((c145_quoted h).2 hx)
  | cons g gs ih =>
    have next : ∀ {v s1}, Evals P 0 f s (.ok v) s1 → (SeqEval (Evals P) env ((g :: gs).map fun g => evalOf (quoteOf g)) s1 o s' ↔
        SeqEval (Evals P) 0 (g :: gs) s1 o s') := by
      intro v s1 hf
      refine ih (hk [f] (g :: gs) v s1 rfl (.last hf)) ?_
      intro pre post w s2 hp hw
      cases pre with
      | nil => cases hw
      | cons p ps => exact hk (f :: p :: ps) post w s2 (by rw [hp]; rfl) (.next hf hw)
    constructor
    · intro hs
      cases hs with
      | next hx hr =>
        have hf := (c145_quoted h).1 hx
        exact .next hf ((next hf).1 hr)
      | fail hx => exact .fail ((c145_quoted h).1 hx)
    · intro hs
      cases hs with
      | next hx hr => exact .next ((c145_quoted h).2 hx) ((next hx).2 hr)
      | fail hx => exact .fail ((c145_quoted h).2 hx)

/-- **C145** `eval` takes one argument: with any other number of arguments, among them an environment as in `(eval form env)`, the call is an error once its
arguments have been evaluated, and nothing is run. -/
theorem c145_count {env : EnvId} {args vs : List V} {s s1 s' : St σ} {o : Out V} (h : EvalMeant P env s) (hv : ArgsEval (Evals P) env args s (.ok vs) s1)
    (hn : args.length ≠ 1) :
    Evals P env (listOf (.sym "eval" :: args)) s o s' ↔
      s' = s1 ∧ o = .stop (throwStop s1 "wrong-number-of-args" (listOf [.bool false, .str "Wrong number of arguments to ~A", .func "eval" 1, .bool false])) := by
  have hl : vs.length = args.length := by
    have : ∀ {as : List V} {ws : List V} {t t' : St σ}, ArgsEval (Evals P) env as t (.ok ws) t' → ws.length = as.length := by
      intro as
      induction as with
      | nil => intro ws t t' h; cases h; rfl
      | cons a as ih => intro ws t t' h; cases h with
        | cons _ h => simp [ih h]
    exact this hv
  show Evals P env (.pair (.sym "eval") (listOf args)) s o s' ↔ _
  rw [c38_operator_partial P env "eval" _ _ s s' o h.root h.noEval (by decide) (by decide) h.builtin, evals_evalFunc, bind_apply, evalArgs_iff.2 hv]
  show callFunc P (run P) "eval" 1 vs s1 = _ ↔ _
  unfold callFunc
  rw [if_pos (by decide), if_neg (by omega)]
  show some (Out.stop _, s1) = some (o, s') ↔ _
  constructor
  · rintro ⟨⟩; exact ⟨rfl, rfl⟩
  · rintro ⟨rfl, rfl⟩; rfl

/-! ## The initial state of the interpreter -/

theorem start_noMacro (x : σ) {y : Name} (hy : y ∉ Pscm.Ref.macroNames) : NoMacro (start x) y := (Pscm.Ref.start_rel x).noMacro hy

set_option maxRecDepth 20000 in
theorem start_evalMeant (P : Prims σ) (x : σ) : EvalMeant P 0 (start x) where
  root := rfl
  builtin := ⟨1, rfl⟩
  noEval := start_noMacro x (by decide)
  noQuote := start_noMacro x (by decide)

end Pscm

namespace Pscm
open Pscm.Ref
open Pscm.Ev hiding Name Form evalForm
variable {σ : Type} {P : Prims σ} {F : FArith}

/-- The program as one expression: `(eval '(begin form ...))`. -/
def asDatum (fs : List Ref.Form) : V := evalOf (quoteOf (listOf (.sym "begin" :: fs.map Form.toV)))

/-- The expression `(eval '(begin form ...))` has the outcomes of the program. -/
theorem asDatum_outcome (x : σ) {fs : List Ref.Form} (hne : fs ≠ []) (o : Out V) :
    (∃ s, Evals P 0 (asDatum fs) (start x) o s) ↔ Outcome P x fs o := by
  cases fs with
  | nil => exact absurd rfl hne
  | cons f fs =>
    refine exists_congr fun s => ?_
    show Evals P 0 (evalOf (quoteOf (listOf (.sym "begin" :: f.toV :: fs.map Form.toV)))) (start x) o s ↔ _
    exact c145_program (start_evalMeant P x) (start_noMacro x (by decide))

/-- **C145** The value of a program given to `eval` is the value the semantics of Scheme gives to the program. -/
theorem c145_value_partial (hP : HasStd P F) (x : σ) {fs : List Ref.Form} (hne : fs ≠ []) (hok : ∀ f ∈ fs, f.Ok Registered) {v : Ref.Val}
    (h : Means fs (.val v)) : ∃ w, Same v w ∧ ∀ o, (∃ s, Evals P 0 (asDatum fs) (start x) o s) ↔ o = .ok w := by
  obtain ⟨w, hw, ho⟩ := c138_value_partial hP x hok h
  exact ⟨w, hw, fun o => (asDatum_outcome x hne o).trans (ho o)⟩

/-- **C145** A program given to `eval` that is an error in the semantics of Scheme is an error. -/
theorem c145_error_partial (hP : HasStd P F) (x : σ) {fs : List Ref.Form} (hne : fs ≠ []) (hok : ∀ f ∈ fs, f.Ok Registered) {t : Option Store}
    (h : Means fs (.error t)) : ∃ k a, ∀ o, (∃ s, Evals P 0 (asDatum fs) (start x) o s) ↔ o = .stop (.err none k a) := by
  obtain ⟨k, a, ho⟩ := c138_error_partial hP x hok h
  exact ⟨k, a, fun o => (asDatum_outcome x hne o).trans (ho o)⟩

end Pscm

namespace Pscm
open Pscm.Ev
variable {σ : Type} {P : Prims σ}

set_option maxRecDepth 20000 in
/-- **C145** What the comment in the program says is false: a local variable of the caller is not visible in the datum.  `(let ((zz 1)) (eval 'zz))` in the
initial state is an error, although `(let ((zz 1)) zz)` is 1. -/
theorem c145_not_local (P : Prims σ) (x : σ) :
    (∃ s k a, Evals P 0 (listOf [.sym "let", listOf [listOf [.sym "zz", .num 1]], evalOf (quoteOf (.sym "zz"))]) (start x) (.stop (.err none k a)) s) ∧
    ∃ s, Evals P 0 (listOf [.sym "let", listOf [listOf [.sym "zz", .num 1]], .sym "zz"]) (start x) (.ok (.num 1)) s :=
  ⟨⟨_, _, _, 9, rfl⟩, ⟨_, 9, rfl⟩⟩

/-! ## Cases -/

set_option maxRecDepth 20000 in
/-- `(eval '(begin (define sq 5) sq))` at the start. -/
example (P : Prims σ) (x : σ) : ∃ s, Evals P 0 (evalOf (quoteOf (listOf [.sym "begin", listOf [.sym "define", .sym "sq", .num 5], .sym "sq"]))) (start x)
    (.ok (.num 5)) s := by
  refine ⟨_, (c145_program (start_evalMeant P x) (start_noMacro x (by decide))).2 (.next ⟨2, rfl⟩ (.last ⟨1, rfl⟩))⟩

set_option maxRecDepth 20000 in
/-- `eval` has its meaning also inside a procedure: in a new frame below the global environment that binds another variable. -/
example (P : Prims σ) (x : σ) : EvalMeant P 1 (enter (start x) 0 Option.none) where
  root := rfl
  builtin := ⟨1, rfl⟩
  noEval := by
    refine ⟨fun f hf v hv => ?_, (start_noMacro x (by decide)).2⟩
    rcases List.mem_append.1 hf with hf | hf
    · exact (start_noMacro x (by decide)).1 f hf v hv
    · cases List.mem_singleton.1 hf; cases hv
  noQuote := by
    refine ⟨fun f hf v hv => ?_, (start_noMacro x (by decide)).2⟩
    rcases List.mem_append.1 hf with hf | hf
    · exact (start_noMacro x (by decide)).1 f hf v hv
    · cases List.mem_singleton.1 hf; cases hv

/-- `(eval '1 2)` is an error. -/
example (P : Prims σ) (x : σ) : ∃ k a, Evals P 0 (listOf [.sym "eval", quoteOf (.num 1), .num 2]) (start x) (.stop (.err none k a)) (start x) := by
  refine ⟨_, _, (c145_count (start_evalMeant P x) (vs := [.num 1, .num 2]) (s1 := start x) ?_ (by simp)).2 ⟨rfl, rfl⟩⟩
  exact .cons ((evals_quote (start_noMacro x (by decide))).2 ⟨rfl, rfl⟩) (.cons ⟨1, rfl⟩ .nil)

end Pscm

namespace Pscm
open Pscm.Ref
open Pscm.Ev hiding Name Form evalForm
variable {σ : Type} {P : Prims σ} {F : FArith}

/-- `(eval '(begin (define (fact n) ...) (fact m)))` is `m!`. -/
example (hP : HasStd P F) (x : σ) (m : Nat) (hm : RefDemo.factorial m < 2 ^ 63) (o : Out V) :
    (∃ s, Evals P 0 (asDatum [RefDemo.factDef, RefDemo.factCall m]) (start x) o s) ↔ o = .ok (.num (RefDemo.factorial m)) := by
  rw [asDatum_outcome x (by simp)]
  exact c138_factorial hP x m hm o

/-- An erroneous program given to `eval`. -/
example (hP : HasStd P F) (x : σ) : ∃ k a s, Evals P 0 (asDatum RefDemo.wrong) (start x) (.stop (.err none k a)) s := by
  obtain ⟨k, a, h⟩ := c145_error_partial hP x (fs := RefDemo.wrong) (by simp [RefDemo.wrong]) (by simp [RefDemo.wrong, Form.Ok, Exp.Ok, Exp.BodyOk, defs, Exp.Oks]; decide) ⟨20, rfl⟩
  obtain ⟨s, hs⟩ := (h _).2 rfl
  exact ⟨k, a, s, hs⟩

end Pscm
