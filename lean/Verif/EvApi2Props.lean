import Verif.EvApi2
import Verif.EvApiProps
import Verif.EvExpandProps
import Verif.EvFormProps
import Verif.EvHigherProps
/-!
# C98 – C101: the embedding interface

`CallFromC P f args s o s'`: `scm_call_n (f, args)` (or `scm_apply_0` on the list of the `args`) in the state `s` ends with `o` in `s'`.
-/
namespace Pscm
open Ev
variable {σ : Type} {P : Prims σ}

/-- `scm_call_n (f, args)` ends with `o`. -/
def CallFromC (P : Prims σ) (f : V) (args : List V) (s : St σ) (o : Out V) (s' : St σ) : Prop := ∃ n, scmCall P (ev P n) f args s = some (o, s')

/-- `scm_apply_0 (f, args)` ends with `o`. -/
def ApplyFromC (P : Prims σ) (f args : V) (s : St σ) (o : Out V) (s' : St σ) : Prop := ∃ n, scmApply P (ev P n) f args s = some (o, s')

theorem callFromC_iff {f : V} {args : List V} {s s' : St σ} {o : Out V} : CallFromC P f args s o s' ↔ scmCall P (run P) f args s = some (o, s') := by
  have hl : EM.Lub (fun n => scmCall P (ev P n) f args) (scmCall P (run P) f args) := by
    unfold scmCall
    cases f <;> first | exact applyProc_lub (run_lub P) _ _ _ _ _ | exact callFunc_lub (run_lub P) _ _ _ _ | exact EM.lub_const _
  have hle : ∀ n, EM.Le (scmCall P (ev P n) f args) (scmCall P (run P) f args) := by
    intro n
    unfold scmCall
    cases f <;> first | exact applyProc_le (ev_le_run P n) _ _ _ _ _ | exact callFunc_le (ev_le_run P n) _ _ _ _ | exact EM.le_refl _
  constructor
  · rintro ⟨n, h⟩; exact (hle n).le _ _ h
  · intro h; exact hl.lub _ _ h

theorem evalArgs_self {env : EnvId} {vs : List V} (h : ∀ v ∈ vs, SelfEvaluating v) (s : St σ) : evalArgs (run P) env vs s = some (.ok vs, s) := by
  induction vs with
  | nil => rfl
  | cons v vs ih =>
    simp only [evalArgs, bind_apply, run_self (h v (.head _)), ih fun w hw => h w (.tail _ hw)]
    rfl

theorem bindParams_self {env pe : EnvId} (ps : List Name) (rest : Option Name) (vs : List V) (h : ∀ v ∈ vs, SelfEvaluating v)
    (hc : CountOk ps rest vs.length) (s : St σ) :
    bindParams (run P) env pe (ps.map V.sym) rest vs s = bindValues pe (ps.map V.sym) rest vs s := by
  induction ps generalizing s vs with
  | nil =>
    cases rest with
    | none =>
      have : vs = [] := by simpa [CountOk] using hc
      subst this
      rfl
    | some r => simp only [List.map_nil, bindParams, bindValues, bind_apply, evalArgs_self h]
  | cons p ps ih =>
    cases vs with
    | nil => cases rest <;> simp [CountOk] at hc
    | cons v vs =>
      simp only [List.map_cons, bindParams, bindValues, bind_apply, run_self (h v (.head _)), bindOwn_apply]
      apply ih _ fun w hw => h w (.tail _ hw)
      cases rest <;> simpa [CountOk] using hc

/-! ## C98: calling procedures from C -/

/-- C98: `scm_call_n (f, args)` is the call of `f` on the values `args`.  Partial: when `f` is a closure, the values evaluate to themselves. -/
theorem c98_call_partial {f : V} {args : List V} {s s' : St σ} {o : Out V} (h : Applies P f args s o s')
    (hs : (∃ n a, f = .func n a) ∨ ∀ v ∈ args, SelfEvaluating v) : CallFromC P f args s o s' := by
  rw [callFromC_iff]
  have hv := h.values
  cases h with
  | builtin hn ha hp => exact hv
  | @closure ps rest body penv fr vs _ _ _ hnd hc hf h =>
    have hs : ∀ v ∈ args, SelfEvaluating v := by
      rcases hs with ⟨n, a, hs⟩ | hs
      · cases hs
      · exact hs
    rw [← hv]
    show applyProc (run P) penv _ _ penv args s = applyProcV (run P) _ _ penv args s
    unfold applyProc applyProcV
    simp only [bind_apply, newEnv_apply hf, splitParams_paramList]
    rw [bindParams_self ps rest args hs hc]

/-- C98: and nothing else: the outcome is unique. -/
theorem c98_unique {f : V} {args : List V} {s s1 s2 : St σ} {o1 o2 : Out V} (h : CallFromC P f args s o1 s1) (h' : CallFromC P f args s o2 s2) :
    o1 = o2 ∧ s1 = s2 := by
  rw [callFromC_iff] at h h'
  rw [h] at h'
  cases h'
  exact ⟨rfl, rfl⟩

/-- C98: `scm_apply_0 (f, list)` is `scm_call_n` on the elements of the list. -/
theorem c98_apply {f : V} {args : List V} {s s' : St σ} {o : Out V} : ApplyFromC P f (listOf args) s o s' ↔ CallFromC P f args s o s' := by
  unfold ApplyFromC CallFromC scmApply
  cases args with
  | nil => rfl
  | cons a args =>
    have : nodes (listOf (a :: args)) = a :: args := nodes_listOf _
    simp only [listOf] at this ⊢
    rw [this]

/-- C98: something that is no procedure is not called: an error, and the state is as before. -/
theorem c98_not_procedure {f : V} {args : List V} {s : St σ} (h1 : ∀ ps b e, f ≠ .proc ps b e) (h2 : ∀ n a, f ≠ .func n a) :
    CallFromC P f args s (errorWith s "scm_call: expected procedure or function") s := by
  rw [callFromC_iff]
  unfold scmCall
  cases f <;> first | rfl | exact absurd rfl (h1 _ _ _) | exact absurd rfl (h2 _ _)

/-- C98 fails for other values: what a closure gets are the values of the *expressions* `args`, evaluated in the closure's environment. -/
theorem c98_actual {ps body : V} {penv : EnvId} {args : List V} {s s' : St σ} {o : Out V} :
    CallFromC P (.proc ps body penv) args s o s' ↔ Evals P penv (listOf (.proc ps body penv :: args)) s o s' := by
  rw [callFromC_iff, evals_step]
  show _ ↔ applyProc (run P) penv ps body penv (nodes (listOf args)) s = _
  rw [nodes_listOf]
  rfl

/-- `(lambda (x) x)` -/
def Demo.identity : V := .proc (listOf [.sym "x"]) (listOf [.sym "x"]) 0

/-- C98 fails: the identity called with the symbol `a` is an error, and called with the list `(+ 1 2)` returns 3. -/
theorem c98_counterexample : (∃ s', CallFromC Demo.prims Demo.identity [.sym "a"] Demo.s0 (errorWith Demo.s0 "symbol not found") s') ∧
    ∃ s', CallFromC Demo.prims Demo.identity [listOf [.sym "+", .num 1, .num 2]] Demo.s0 (.ok (.num 3)) s' :=
  ⟨⟨_, 9, rfl⟩, ⟨_, 9, rfl⟩⟩

/-- The hypotheses of `c98_call_partial` are met: a closure called with a number, a builtin called with a symbol and a list. -/
example : (∃ s', CallFromC Demo.prims Demo.identity [.num 5] Demo.s0 (.ok (.num 5)) s') ∧
    CallFromC Demo.prims (.func "cons" 2) [.sym "a", listOf [.num 1]] Demo.s0 (.ok (listOf [.sym "a", .num 1])) Demo.s0 :=
  ⟨⟨_, c98_call_partial (.closure (ps := ["x"]) (rest := Option.none) (body := [.sym "x"]) (by simp) rfl rfl
      (.last (evals_iff.2 (run_eq_some.2 ⟨3, rfl⟩)))) (.inr (by simp [SelfEvaluating]))⟩,
    c98_call_partial (.builtin (by decide) (.inl ⟨rfl, by decide⟩) .ret) (.inl ⟨_, _, rfl⟩)⟩

/-! ## C99: variables from C -/

/-- The state after `scm_c_define (x, v)`: `x` is bound to `v` in the current module. -/
def definedFromC (s : St σ) (x : Name) (v : V) : St σ := { s with mods := scmModuleDefine s.mods s.cur x v }

theorem cDefine_apply (x : Name) (v : V) (s : St σ) : cDefine x v s = some (.ok v, definedFromC s x v) := rfl

theorem topValue_defined {s : St σ} {g : Frame} {x : Name} {v : V} (hg : s.frames[0]? = some g) (hx : g.entries.lookup x = Option.none)
    (hc : s.cur < s.mods.length) : TopValue (definedFromC s x v) x v := by
  have h := (c72_define s.mods s.root s.cur x v hc s.cur).2.1 ⟨[], s.mods[s.cur].uses ++ [s.root], by
    simp [searchOrder, List.getElem?_eq_getElem hc], by simp⟩
  obtain ⟨u, hu⟩ := moduleValue_some.1 h
  exact .module hg hx hu

theorem topLevel_defined {s : St σ} {x : Name} {v : V} (h : TopLevel s) : TopLevel (definedFromC s x v) := h

theorem evals_top {s : St σ} {x : Name} {v : V} (ht : TopLevel s) (hk : isKeyword x = false) (h : TopValue s x v) : Evals P 0 (.sym x) s (.ok v) s := by
  rw [evals_step]
  show (if isKeyword x = true then pure (.sym x) else lookupSymbol 0 x : EM σ V) s = _
  rw [hk]
  show lookupSymbol 0 x s = _
  unfold lookupSymbol
  rw [Ev.getSt_bind, (topValue_iff ht).2 h]
  rfl

/-- C99: `pscm_c_lookup (x)` gives the value of the variable `x` at top level, and is an error if there is none; nothing changes. -/
theorem c99_lookup {s s' : St σ} {x : Name} {o : Out V} (ht : TopLevel s) : cLookup x s = some (o, s') ↔
    s' = s ∧ ((∃ v, TopValue s x v ∧ o = .ok v) ∨ (∀ v, ¬ TopValue s x v) ∧ o = errorWith s "scm_c_lookup: unbound variable") := by
  unfold cLookup
  rw [Ev.getSt_bind]
  cases h : envSearch s 0 x with
  | some v =>
    have hv := (topValue_iff ht).1 h
    have hu : ∀ w, TopValue s x w → w = v := fun w hw => by
      have := (topValue_iff ht).2 hw
      rw [h] at this
      exact (Option.some.inj this).symm
    constructor
    · intro hh; cases hh; exact ⟨rfl, .inl ⟨v, hv, rfl⟩⟩
    · rintro ⟨rfl, ⟨w, hw, rfl⟩ | ⟨hn, _⟩⟩
      · rw [hu w hw]; rfl
      · exact absurd hv (hn v)
  | none =>
    have hn : ∀ v, ¬ TopValue s x v := fun v hv => by rw [(topValue_iff ht).2 hv] at h; cases h
    constructor
    · intro hh; cases hh; exact ⟨rfl, .inr ⟨hn, rfl⟩⟩
    · rintro ⟨rfl, ⟨w, hw, rfl⟩ | ⟨_, rfl⟩⟩
      · exact absurd hw (hn w)
      · rfl

/-- C99: `pscm_c_module_lookup (m, x)` gives the value that the variable `x` has in the module `m`. -/
theorem c99_module_lookup {s s' : St σ} {m : Nat} {x : Name} {o : Out V} : cModuleLookup m x s = some (o, s') ↔
    s' = s ∧ ((∃ u v, FirstBinding s.mods s.root m x u v ∧ o = .ok v) ∨
      NoBinding s.mods s.root m x ∧ o = errorWith s "scm_c_module_lookup: unbound variable") := by
  unfold cModuleLookup
  rw [Ev.getSt_bind, searchModule_eq]
  cases h : moduleValue s.mods s.root m x with
  | some v =>
    obtain ⟨u, hu⟩ := moduleValue_some.1 h
    constructor
    · intro hh; cases hh; exact ⟨rfl, .inl ⟨u, v, hu, rfl⟩⟩
    · rintro ⟨rfl, ⟨u', w, hw, rfl⟩ | ⟨hn, _⟩⟩
      · have := moduleValue_some.2 ⟨_, hw⟩
        rw [h] at this
        cases this
        rfl
      · rw [moduleValue_none.2 hn] at h; cases h
  | none =>
    have hn := moduleValue_none.1 h
    constructor
    · intro hh; cases hh; exact ⟨rfl, .inr ⟨hn, rfl⟩⟩
    · rintro ⟨rfl, ⟨u', w, hw, rfl⟩ | ⟨_, rfl⟩⟩
      · have := moduleValue_some.2 ⟨_, hw⟩
        rw [h] at this
        cases this
      · rfl

/-- C99: after `pscm_c_define (x, v)` the variable `x` has the value `v` for Scheme code at top level and for `pscm_c_lookup`; all other
variables are as before.  Partial: the global environment has no binding of `x` (names of builtins have one). -/
theorem c99_define_partial {s : St σ} {g : Frame} {x : Name} {v : V} (ht : TopLevel s) (hg : s.frames[0]? = some g)
    (hx : g.entries.lookup x = Option.none) (hk : isKeyword x = false) (hc : s.cur < s.mods.length) :
    ∃ s', cDefine x v s = some (.ok v, s') ∧ Evals P 0 (.sym x) s' (.ok v) s' ∧ cLookup x s' = some (.ok v, s') ∧
      ∀ z w, z ≠ x → (TopValue s' z w ↔ TopValue s z w) := by
  have ht' := topLevel_defined (x := x) (v := v) ht
  have hv := topValue_defined (v := v) hg hx hc
  refine ⟨_, cDefine_apply x v s, evals_top ht' hk hv, (c99_lookup ht').2 ⟨rfl, .inl ⟨v, hv, rfl⟩⟩, fun z w hz => ?_⟩
  rw [← topValue_iff ht, ← topValue_iff ht', envSearch_top ht, envSearch_top ht']
  have : moduleValue (definedFromC s x v).mods (definedFromC s x v).root (definedFromC s x v).cur z = moduleValue s.mods s.root s.cur z :=
    (c72_define s.mods s.root s.cur x v hc s.cur).1 z hz
  rw [this]
  rfl

/-- C99: `pscm_c_define (x, v)` does what `(define x 'v)` does at top level. -/
theorem c99_same_as_define {s : St σ} {g : Frame} {x : Name} {v : V} (hm : NoMacro s "define") (hq : NoMacro s "quote") (hg : s.frames[0]? = some g)
    (hp : g.parent = Option.none) (hx : g.entries.lookup x = Option.none) :
    ∃ s', cDefine x v s = some (.ok v, s') ∧ Evals P 0 (listOf [.sym "define", .sym x, quoted v]) s (.ok .none) s' :=
  ⟨_, cDefine_apply x v s, c72_define_form hm (evals_quoted (hq.quoteOk 0)) hg hp hx⟩

/-- C99 fails for names that the global environment binds, such as those of the builtins: the definition has no effect on references. -/
theorem c99_counterexample : ∃ s', cDefine "car" (.num 5) Demo.s0 = some (.ok (.num 5), s') ∧
    Evals Demo.prims 0 (.sym "car") s' (.ok (.func "car" 1)) s' ∧ cLookup "car" s' = some (.ok (.func "car" 1), s') :=
  ⟨_, rfl, ⟨3, rfl⟩, rfl⟩

example : TopLevel Demo.s0 ∧ (∃ g, Demo.s0.frames[0]? = some g ∧ g.entries.lookup "answer" = Option.none) ∧ isKeyword "answer" = false ∧
    Demo.s0.cur < Demo.s0.mods.length := ⟨⟨_, rfl, rfl, rfl⟩, ⟨_, rfl, by decide⟩, by decide, by decide⟩

/-! ## C100: builtins from C -/

/-- The value of an operator that only the current module binds. -/
theorem evals_operator {s s' : St σ} {g : Frame} {x : Name} {n : Name} {a : Int} {rest : V} {o : Out V} (ht : TopLevel s)
    (hg : s.frames[0]? = some g) (hx : g.entries.lookup x = Option.none) (hc : s.cur < s.mods.length) (hf : formOf x = Option.none) :
    Evals P 0 (.pair (.sym x) rest) (definedFromC s x (.func n a)) o s' ↔ Evals P 0 (.pair (.func n a) rest) (definedFromC s x (.func n a)) o s' := by
  have ht' := topLevel_defined (x := x) (v := .func n a) ht
  have hv := topValue_defined (v := .func n a) hg hx hc
  have he := (topValue_iff ht').2 hv
  have hg' : (definedFromC s x (.func n a)).frames[0]? = some g := hg
  generalize hs : definedFromC s x (.func n a) = t at *
  have hop : opValue t 0 x = Option.none ∨ opValue t 0 x = some (.func n a) := by
    unfold opValue
    rw [lookOwn_zero hg', hx]
    simp only
    by_cases hr : t.cur = t.root
    · simp [hr]
    · rw [if_pos hr]
      have : obLookup t.mods t.cur x = some (.func n a) := by
        rw [obLookup_eq, ← hs]
        have hmd : s.mods[s.cur]? = some s.mods[s.cur] := List.getElem?_eq_getElem hc
        show ownValue (obSet s.mods s.cur x (.func n a)) x s.cur = _
        rw [ownValue_obSet hmd]
        simp
      simp [this]
  rw [evals_step]
  show evalPair P (run P) 0 (.sym x) rest t = _ ↔ _
  unfold evalPair
  simp only [Ev.getSt_bind]
  rcases hop with hop | hop
  · rw [hop]
    simp only [hf]
    rw [bind_apply]
    have : lookupSymbol 0 x t = some (.ok (.func n a), t) := by
      unfold lookupSymbol
      rw [Ev.getSt_bind, he]
      rfl
    rw [this]
    exact evals_iff.symm
  · rw [hop]
    simp only [hf]
    exact evals_iff.symm

/-- The builtin can be called by its name: `x` is a name that neither the global environment nor the evaluator uses otherwise. -/
structure Registrable (s : St σ) (x : Name) : Prop where
  top : TopLevel s
  free : ∀ g, s.frames[0]? = some g → g.entries.lookup x = Option.none
  cur : s.cur < s.mods.length
  noForm : formOf x = Option.none
  noName : x ∉ interpreterNames

/-- C100: after `pscm_c_define_gsubr (x, req, 0, 0, fcn)` with at most three required arguments, `(x e ...)` evaluates the operands; with `req` of
them, `fcn` is called on their values; with another number, an error is raised. -/
theorem c100_required {s s1 : St σ} {x : Name} {req : Nat} {es vs : List V} (hr : Registrable s x) (h3 : req ≤ 3) :
    ∃ s0 f, cDefineGsubr x req 0 0 s = some (.ok f, s0) ∧
      (ArgsEval (Evals P) 0 es s0 (.ok vs) s1 →
        (vs.length = req → ∀ o s', Runs (Evals P) (P.call x vs s1.ext) s1 o s' → Evals P 0 (listOf (.sym x :: es)) s0 o s') ∧
        (vs.length ≠ req → ∃ args, Evals P 0 (listOf (.sym x :: es)) s0 (.stop (throwStop s1 "wrong-number-of-args" args)) s1)) := by
  obtain ⟨g, hg, hp, hm⟩ := hr.top
  refine ⟨_, _, rfl, fun he => ⟨fun hl o s' hrun => ?_, fun hl =>
    ⟨listOf [.bool false, .str "Wrong number of arguments to ~A", .func x req, .bool false], ?_⟩⟩⟩
  · show Evals P 0 (.pair (.sym x) (listOf es)) _ o s'
    refine (evals_operator hr.top hg (hr.free g hg) hr.cur hr.noForm).2 ?_
    have := c47_enter P 0 x es vs _ s1 s' o hr.noName (by omega) he hrun
    rw [hl] at this
    exact this
  · show Evals P 0 (.pair (.sym x) (listOf es)) _ _ s1
    refine (evals_operator hr.top hg (hr.free g hg) hr.cur hr.noForm).2 ?_
    refine c47_arity P 0 x req es vs _ s1 ?_ (by omega) he (by omega)
    intro hin
    apply hr.noName
    simp only [List.mem_cons, List.not_mem_nil, or_false] at hin
    rcases hin with rfl | rfl | rfl | rfl | rfl <;> decide

/-- C100: after `pscm_c_define_gsubr (x, req, opt, rst, fcn)` with optional or rest arguments, `(x e ...)` calls `fcn` on the values of the
operands.  Partial: the number of operands is not checked at all (see the counterexample). -/
theorem c100_optional_partial {s s1 s' : St σ} {x : Name} {req opt rst : Nat} {es vs : List V} {o : Out V} (hr : Registrable s x)
    (h : 0 < opt ∨ 0 < rst) : ∃ s0 f, cDefineGsubr x req opt rst s = some (.ok f, s0) ∧
      (ArgsEval (Evals P) 0 es s0 (.ok vs) s1 → Runs (Evals P) (P.call x vs s1.ext) s1 o s' → Evals P 0 (listOf (.sym x :: es)) s0 o s') := by
  obtain ⟨g, hg, hp, hm⟩ := hr.top
  refine ⟨_, _, rfl, fun he hrun => ?_⟩
  show Evals P 0 (.pair (.sym x) (listOf es)) _ o s'
  refine (evals_operator hr.top hg (hr.free g hg) hr.cur hr.noForm).2 ?_
  have ha : gsubrArity req opt rst = -2 := by
    unfold gsubrArity
    split
    · rfl
    · rw [if_pos (by omega)]
  have he' : ArgsEval (Evals P) 0 es (definedFromC s x (.func x (gsubrArity req opt rst))) (.ok vs) s1 := he
  rw [ha] at he' ⊢
  rw [evals_step]
  show evalFuncCall P (run P) 0 x _ (listOf es) _ = _
  have hn' := hr.noName
  simp only [interpreterNames, List.mem_cons, not_or, List.not_mem_nil, not_false_eq_true, and_true] at hn'
  obtain ⟨_, _, _, _, _, _, _, _, _, _, h11, h12, h13, h14, h15, _, _, _, _, _, _, _, _, _, _⟩ := hn'
  simp only [evalFuncCall, isCallCC, h11, h12, h13, h14, h15, nodes_listOf]
  simp only [or_self, decide_false, Bool.or_self, Bool.false_eq_true, if_false, bind_apply, evalArgs_iff.2 he']
  rw [callFunc_ext hr.noName (.inr rfl)]
  exact extPrim_of hrun

namespace Demo
/-- A builtin `f` that returns the list of its arguments. -/
def gsubr : Prims Unit where
  call := fun _ args u => .done (.ok (listOf args)) u
  init := fun _ => .num 0
  file := fun _ _ => .missing
end Demo

/-- C100 fails: a builtin with four required arguments can never be called, and one with a required and a rest argument is entered without
arguments. -/
theorem c100_counterexample :
    (∃ f s0, cDefineGsubr "f" 4 0 0 Demo.s0 = some (.ok f, s0) ∧
      ∃ s', Evals Demo.gsubr 0 (listOf [.sym "f", .num 1, .num 2, .num 3, .num 4]) s0 (errorWith s0 "not supported function") s') ∧
    (∃ f s0, cDefineGsubr "f" 1 0 1 Demo.s0 = some (.ok f, s0) ∧ ∃ s', Evals Demo.gsubr 0 (listOf [.sym "f"]) s0 (.ok .nil) s') :=
  ⟨⟨_, _, rfl, _, ⟨9, rfl⟩⟩, ⟨_, _, rfl, _, ⟨9, rfl⟩⟩⟩

theorem Demo.registrable : Registrable Demo.s0 "f" :=
  ⟨⟨_, rfl, rfl, rfl⟩, fun g hg => by cases hg; decide, by decide, by decide, by decide⟩

example : ∃ s0 f s', cDefineGsubr "f" 2 0 0 Demo.s0 = some (.ok f, s0) ∧
    Evals Demo.gsubr 0 (listOf [.sym "f", .num 1, .num 2]) s0 (.ok (listOf [.num 1, .num 2])) s' := by
  obtain ⟨s0, f, h1, h2⟩ := c100_required (P := Demo.gsubr) (s1 := definedFromC Demo.s0 "f" (.func "f" 2)) (es := [.num 1, .num 2]) (vs := [.num 1, .num 2])
    Demo.registrable (req := 2) (by decide)
  cases h1
  exact ⟨_, _, _, rfl, (h2 (.cons ⟨1, rfl⟩ (.cons ⟨1, rfl⟩ .nil))).1 rfl _ _ .ret⟩

/-! ## C101: files from C -/

/-- The expressions are given to `pscm_eval` one after the other; `r` is the result of the last. -/
inductive EvalCalls (P : Prims σ) : List V → ApiRes → St σ → ApiRes → St σ → Prop
  | nil {r s} : EvalCalls P [] r s r s
  | cons {x xs r0 r1 r s s1 s'} (n : Nat) : pscmEval P n x s = some (.ok r1, s1) → EvalCalls P xs r1 s1 r s' → EvalCalls P (x :: xs) r0 s r s'

theorem pscmEval_le (P : Prims σ) {n m : Nat} (h : n ≤ m) (x : V) : EM.Le (pscmEval P n x) (pscmEval P m x) := by
  unfold pscmEval apiCatch
  refine EM.bind_le (EM.le_refl _) fun s => ?_
  split
  · exact EM.le_refl _
  · refine EM.bind_le (EM.le_refl _) fun id => EM.handle_le (EM.bind_le (ev_le P h _) fun _ => EM.le_refl _) fun o => EM.le_refl _

theorem evalEach_le (P : Prims σ) {n m : Nat} (h : n ≤ m) (xs : List V) (r : ApiRes) : EM.Le (evalEach P n xs r) (evalEach P m xs r) := by
  induction xs generalizing r with
  | nil => exact EM.le_refl _
  | cons x xs ih => exact EM.bind_le (pscmEval_le P h x) fun r => ih r

theorem evalEach_iff {xs : List V} {r r0 : ApiRes} {s s' : St σ} : (∃ n, evalEach P n xs r0 s = some (.ok r, s')) ↔ EvalCalls P xs r0 s r s' := by
  induction xs generalizing r0 s with
  | nil =>
    constructor
    · rintro ⟨n, h⟩; cases h; exact .nil
    · intro h; cases h; exact ⟨0, rfl⟩
  | cons x xs ih =>
    constructor
    · rintro ⟨n, h⟩
      unfold evalEach at h
      rw [bind_eq_some] at h
      rcases h with ⟨r1, s1, h1, h2⟩ | ⟨e, _, h2⟩
      · exact .cons n h1 (ih.1 ⟨n, h2⟩)
      · cases h2
    · intro h
      cases h with
      | @cons _ _ _ r1 _ _ s1 _ n h1 h2 =>
        obtain ⟨m, hm⟩ := ih.2 h2
        refine ⟨max n m, ?_⟩
        unfold evalEach
        rw [bind_eq_some]
        exact .inl ⟨r1, s1, (pscmEval_le P (Nat.le_max_left n m) x).le _ _ h1, (evalEach_le P (Nat.le_max_right n m) xs r1).le _ _ hm⟩

/-- `pscm_eval_file (path)` returns `r`. -/
def EvalFile (P : Prims σ) (path : String) (s : St σ) (r : ApiRes) (s' : St σ) : Prop := ∃ n, pscmEvalFile P n path s = some (.ok r, s')

/-- C101: `pscm_eval_file` gives the expressions of a readable file to `pscm_eval`, all of them, in order, and returns the result of the last. -/
theorem c101_each {path : String} {xs : List V} {s s' : St σ} {r : ApiRes} (hf : P.file path s.ext = .exprs xs) :
    EvalFile P path s r s' ↔ EvalCalls P xs .null s r s' := by
  rw [← evalEach_iff]
  unfold EvalFile pscmEvalFile
  constructor
  · rintro ⟨n, h⟩
    rw [Ev.getSt_bind, hf] at h
    exact ⟨n, h⟩
  · rintro ⟨n, h⟩
    refine ⟨n, ?_⟩
    rw [Ev.getSt_bind, hf]
    exact h

theorem evalCalls_last {xs : List V} {x : V} {s s' : St σ} {r0 r : ApiRes} (h : EvalCalls P (xs ++ [x]) r0 s r s') :
    ∃ n s1 r1, EvalCalls P xs r0 s r1 s1 ∧ pscmEval P n x s1 = some (.ok r, s') := by
  induction xs generalizing r0 s with
  | nil =>
    cases h with
    | cons n h1 h2 => cases h2; exact ⟨n, s, r0, .nil, h1⟩
  | cons y ys ih =>
    cases h with
    | @cons _ _ _ r1 _ _ s1 _ n h1 h2 =>
      obtain ⟨m, s2, r2, h3, h4⟩ := ih h2
      exact ⟨m, s2, r2, .cons n h1 h3, h4⟩

/-- C101: the result is that of the last expression.  Partial: errors of the other expressions are lost (see the counterexample). -/
theorem c101_last_partial {path : String} {xs : List V} {x : V} {s s' : St σ} {r : ApiRes} (hf : P.file path s.ext = .exprs (xs ++ [x]))
    (h : EvalFile P path s r s') : ∃ n s1 r1, EvalCalls P xs .null s r1 s1 ∧ pscmEval P n x s1 = some (.ok r, s') :=
  evalCalls_last ((c101_each hf).1 h)

/-- C101: a file that cannot be opened gives the null pointer, and nothing changes. -/
theorem c101_missing {path : String} {s : St σ} (hf : P.file path s.ext = .missing) : EvalFile P path s .null s := by
  refine ⟨0, ?_⟩
  unfold pscmEvalFile
  rw [Ev.getSt_bind, hf]
  rfl

/-- C101 fails for errors: they do not stop the evaluation and are not reported.  The file holds `(throw 'oops 1)` and `5`; the result is 5. -/
theorem c101_counterexample : ∃ s', EvalFile (Demo.world [("f.scm", .exprs [Ev.Demo.l [.sym "throw", quoted (.sym "oops"), .num 1], .num 5])]) "f.scm"
    Demo.s0 (.value (.num 5)) s' := ⟨_, 12, rfl⟩

/-- C101 fails for a file that cannot be parsed: the error is not caught by the interface (at top level: the process exits). -/
theorem c101_parse_counterexample {path : String} {n : Nat} {s : St σ} (hf : P.file path s.ext = .malformed) :
    pscmEvalFile P n path s = some (.stop (throwStop s "error" (listOf [.str "Parse error"])), s) := by
  unfold pscmEvalFile
  rw [Ev.getSt_bind, hf]
  rfl

/-- The hypotheses are met: a file that defines a variable and uses it. -/
example : ∃ s', EvalFile (Demo.world [("f.scm", .exprs [Demo.def' "x" 2, Ev.Demo.l [.sym "+", .sym "x", .num 40]])]) "f.scm"
    Demo.s0 (.value (.num 42)) s' := ⟨_, 12, rfl⟩

end Pscm
