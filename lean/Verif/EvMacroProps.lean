import Verif.EvDemo
import Verif.EvApply
import Verif.EvCall
/-!
# Macros (C60)
-/
namespace Pscm.Ev
variable {σ : Type}
open EM (stop getSt modSt)

/-! ## Specification -/

/-- The macro that a symbol in operator position denotes: a binding of the current frame, or -- when the current frame does not
bind the symbol and the current module is the root -- of the global environment. -/
inductive MacroAt (s : St σ) (env : EnvId) (m : Name) (v : V) : Prop
  | own {f : Frame} : s.frames[env]? = some f → f.entries.lookup m = some v → MacroAt s env m v
  | global {f g : Frame} : s.frames[env]? = some f → f.entries.lookup m = Option.none → s.cur = s.root →
      s.frames[0]? = some g → g.entries.lookup m = some v → MacroAt s env m v

/-- Nowhere in `t` is there a list whose head is a symbol that satisfies `M`. -/
inductive NoHead (M : Name → Prop) : V → Prop
  | atom {t} : (∀ a d, t ≠ .pair a d) → NoHead M t
  | pair {a d} : (∀ x, a = .sym x → ¬ M x) → NoHead M a → NoHead M d → NoHead M (.pair a d)

/-- Frame `env` binds `x` to a macro. -/
def FrameMacro (s : St σ) (env : EnvId) (x : Name) : Prop :=
  ∃ f v, s.frames[env]? = some f ∧ f.entries.lookup x = some v ∧ isMacro v = true

/-- A list whose evaluation is a call or a special form: its head is a symbol, a list, a procedure or a continuation, or it has
more than one element. -/
def CallForm (t : V) : Prop := ∃ h r, t = .pair h r ∧ (callableHead h = true ∨ r ≠ .nil)

/-- The call `(m form ...)`. -/
def macroUse (m : Name) (forms : List V) : V := .pair (.sym m) (listOf forms)

/-- `(define-macro (m . params) body ...)`. -/
def macroDef (m : Name) (params : V) (body : List V) : V :=
  .pair (.sym "define-macro") (.pair (.pair (.sym m) params) (listOf body))

/-- The macro object for a parameter list. -/
def macroOf (ps : List Name) (rest : Option Name) (body : List V) (env : EnvId) : V :=
  .macro (paramList ps rest) (listOf body) env

/-! ## Lemmas -/

theorem MacroAt.op {s : St σ} {env m ps b me} (h : MacroAt s env m (.macro ps b me)) : opValue s env m = some (.macro ps b me) := by
  cases h with
  | own hf hl =>
    rw [lookup_eq_findEntry] at hl
    simp only [opValue, lookOwn, hf, hl]
  | global hf hn hc hg hl =>
    rw [lookup_eq_findEntry] at hl hn
    simp only [opValue, lookOwn, hf, hn, hg, hl, hc, ne_eq, not_true_eq_false, if_false]
    rfl

theorem bindForms_eq {s : St σ} {pe : EnvId} (ps : List Name) (rest : Option Name) (vs : List V) (hc : CountOk ps rest vs.length) :
    bindForms pe (ps.map V.sym) rest vs s = bindValues pe (ps.map V.sym) rest vs s := by
  induction ps generalizing s vs with
  | nil =>
    cases rest with
    | none =>
      have : vs = [] := by simpa [CountOk] using hc
      subst this; rfl
    | some r => rfl
  | cons p ps ih =>
    cases vs with
    | nil => cases rest <;> simp [CountOk] at hc
    | cons v vs =>
      simp only [List.map_cons, bindForms, bindValues, bind_apply, bindOwn_apply]
      apply ih
      cases rest <;> simpa [CountOk] using hc

theorem expandCall_ok {P : Prims σ} {s s1 : St σ} {o ps rest body me} {f : Frame} {forms : List V}
    (hnd : (ps ++ rest.toList).Nodup) (hc : CountOk ps rest forms.length) (hf : s.frames[me]? = some f)
    (h : SeqEval (Evals P) s.frames.length body
        { s with frames := s.frames ++ [⟨callBindings ps rest forms, some me, f.modl⟩] } o s1) :
    expandCall (run P) (paramList ps rest) (listOf body) me forms s = some (o, s1) := by
  unfold expandCall
  simp only [bind_apply, newEnv_apply hf, splitParams_paramList]
  rw [bindForms_eq ps rest forms hc, bindValues_apply (f := ⟨[], some me, f.modl⟩) ps rest forms (by simp) hnd (by simp) hc]
  simp only [updFrame_push, List.append_nil]
  exact seq_nodes h

theorem expand_id {P : Prims σ} {env t} {s : St σ} (h : NoHead (FrameMacro s env) t) :
    run P (.expand env t) s = some (.ok t, s) ∧ expandElems (run P) env t s = some (.ok t, s) := by
  induction h with
  | @atom t h =>
    have h1 : run P (.expand env t) s = some (.ok t, s) := by
      rw [run_eq]
      cases t <;> first | rfl | exact absurd rfl (h _ _)
    refine ⟨h1, ?_⟩
    cases t <;> first | rfl | exact h1 | exact absurd rfl (h _ _)
  | @pair a d ha _ _ iha ihd =>
    have h2 : expandElems (run P) env (.pair a d) s = some (.ok (.pair a d), s) := by
      simp only [expandElems, bind_apply, iha.1, ihd.2, pure_apply]
    refine ⟨?_, h2⟩
    rw [run_eq]
    show expandMacros (run P) env (.pair a d) s = _
    cases a with
    | sym x =>
      simp only [expandMacros, getSt_bind]
      cases hl : lookOwn s.frames env x with
      | none => exact h2
      | some v =>
        have : isMacro v = false := by
          cases hb : isMacro v with
          | false => rfl
          | true =>
            exfalso
            unfold lookOwn at hl
            cases hf : s.frames[env]? with
            | none => rw [hf] at hl; cases hl
            | some f =>
              rw [hf] at hl
              exact ha x rfl ⟨f, v, hf, by rw [lookup_eq_findEntry]; exact hl, hb⟩
        cases v <;> first | exact h2 | cases this
    | _ => exact h2

theorem macroUse_eval {P : Prims σ} {env m ps b me forms} {s : St σ} (h : MacroAt s env m (.macro ps b me)) :
    run P (.eval env (macroUse m forms)) s = macroCall (run P) env ps b me (listOf forms) s := by
  rw [run_eq]
  show evalPair P (run P) env (.sym m) (listOf forms) s = _
  simp only [evalPair, getSt_bind, h.op]

/-! ## The property -/

/-- C60: using a macro binds its parameters to the operand *forms* -- parameter `i` to form `i`, a rest parameter to the list of the
remaining forms -- evaluates the macro's body in a new frame below its definition environment, and then evaluates the resulting form
in the environment of the use.  Partial: the expansion is a list and contains no list headed by a macro of the current frame (such
calls are expanded in advance, even inside quotations); see the counterexamples for the other cases. -/
theorem c60_use_partial {P : Prims σ} {env : EnvId} {m : Name} {ps : List Name} {rest : Option Name} {body forms : List V} {me : EnvId}
    {f : Frame} {t : V} {s s1 s' : St σ} {o : Out V}
    (hm : MacroAt s env m (macroOf ps rest body me)) (hnd : (ps ++ rest.toList).Nodup)
    (hc : CountOk ps rest forms.length) (hf : s.frames[me]? = some f)
    (hx : SeqEval (Evals P) s.frames.length body
        { s with frames := s.frames ++ [⟨callBindings ps rest forms, some me, f.modl⟩] } (.ok t) s1)
    (hno : NoHead (FrameMacro s1 env) t) (ht : CallForm t) :
    Evals P env (macroUse m forms) s o s' ↔ Evals P env t s1 o s' := by
  obtain ⟨h, r, rfl, hhr⟩ := ht
  rw [evals_iff, evals_iff, macroUse_eval hm]
  unfold macroCall
  have hcond : (!callableHead h && r == .nil) = false := by
    rcases hhr with hh | hr
    · simp [hh]
    · simp [hr]
  simp only [bind_apply, nodes_listOf, expandCall_ok hnd hc hf hx, (expand_id hno).1, hcond]
  rfl

/-- C60: an error of the macro's body is the outcome of the use. -/
theorem c60_use_stop {P : Prims σ} {env : EnvId} {m : Name} {ps : List Name} {rest : Option Name} {body forms : List V} {me : EnvId}
    {f : Frame} {e : Stop} {s s1 : St σ}
    (hm : MacroAt s env m (macroOf ps rest body me)) (hnd : (ps ++ rest.toList).Nodup)
    (hc : CountOk ps rest forms.length) (hf : s.frames[me]? = some f)
    (hx : SeqEval (Evals P) s.frames.length body
        { s with frames := s.frames ++ [⟨callBindings ps rest forms, some me, f.modl⟩] } (.stop e) s1) :
    Evals P env (macroUse m forms) s (.stop e) s1 := by
  rw [evals_iff, macroUse_eval hm]
  unfold macroCall
  simp only [bind_apply, nodes_listOf, expandCall_ok hnd hc hf hx]

theorem bindForms_count {pe : EnvId} (ps : List Name) (forms : List V) (hc : forms.length ≠ ps.length) (s : St σ) :
    ∃ s' : St σ, bindForms pe (ps.map V.sym) Option.none forms s =
        some (.stop (throwStop s "error" (.pair (.str "Wrong number of arguments") .nil)), s') ∧ s'.catches = s.catches ∧ s'.live = s.live := by
  induction ps generalizing s forms with
  | nil =>
    cases forms with
    | nil => exact absurd rfl hc
    | cons a as => exact ⟨s, rfl, rfl, rfl⟩
  | cons p ps ih =>
    cases forms with
    | nil => exact ⟨s, rfl, rfl, rfl⟩
    | cons a as =>
      simp only [List.map_cons, bindForms, bind_apply, bindOwn_apply]
      obtain ⟨s', h1, h2, h3⟩ := ih as (by simpa using hc) { s with frames := updFrame s.frames pe (upsert p a) }
      exact ⟨s', h1, h2, h3⟩

/-- C60: a wrong operand count is an error.  Partial: for macros without rest parameter; with one, too few operands leave parameters
unbound, as for procedures. -/
theorem c60_count_partial {P : Prims σ} {env : EnvId} {m : Name} {ps : List Name} {body forms : List V} {me : EnvId}
    {f : Frame} {s : St σ} (hm : MacroAt s env m (macroOf ps Option.none body me)) (hf : s.frames[me]? = some f)
    (hc : forms.length ≠ ps.length) :
    ∃ msg s', Evals P env (macroUse m forms) s (.stop (throwStop s "error" (listOf [.str msg]))) s' := by
  obtain ⟨s', h, _, _⟩ := bindForms_count (pe := s.frames.length) ps forms hc { s with frames := s.frames ++ [⟨[], some me, f.modl⟩] }
  refine ⟨"Wrong number of arguments", s', ?_⟩
  rw [evals_iff, macroUse_eval hm]
  unfold macroCall expandCall
  simp only [bind_apply, nodes_listOf, newEnv_apply hf, splitParams_paramList, h]
  rfl

/-- C60: `(define-macro (m p ...) body ...)` at top level makes `m` that macro, and changes nothing else.  Partial: a parameter list
of exactly one parameter is turned into a rest parameter (`c60_counterexample`). -/
theorem c60_define_partial {P : Prims σ} {m : Name} {ps : List Name} {rest : Option Name} {b : V} {body : List V} {g : Frame} {s : St σ}
    (hk : NoMacro s "define-macro") (hroot : s.cur = s.root) (hg : s.frames[0]? = some g) (hp : g.parent = Option.none)
    (hone : ∀ p, ¬ (ps = [p] ∧ rest = Option.none)) :
    ∃ s', Evals P 0 (macroDef m (paramList ps rest) (b :: body)) s (.ok .none) s' ∧
      MacroAt s' 0 m (macroOf ps rest (b :: body) 0) ∧
      (∃ g', s'.frames = s.frames.set 0 g' ∧ g'.parent = g.parent ∧ g'.modl = g.modl ∧
        (∀ x, x ≠ m → g'.entries.lookup x = g.entries.lookup x)) ∧
      s' = { s with frames := s'.frames } := by
  have hmp : macroParams (paramList ps rest) = paramList ps rest := by
    cases ps with
    | nil => cases rest <;> rfl
    | cons p qs =>
      cases qs with
      | nil =>
        cases rest with
        | none => exact absurd ⟨rfl, rfl⟩ (hone p)
        | some r => rfl
      | cons q qs => rfl
  let v := macroOf ps rest (b :: body) 0
  have hst : defineMacroSt s 0 m v = { s with frames := s.frames.set 0 { g with entries := upsert m v g.entries } } := by
    unfold defineMacroSt
    simp only [hroot, ne_eq, not_true_eq_false, if_false, hg, hp, lookOwn]
    unfold upsert hasEntry
    cases hh : (findEntry m g.entries).isSome with
    | true => simp only [if_true, updFrame, hg, hp]
    | false =>
      simp only [Bool.false_eq_true, if_false, insertDeep]
      have : findFrame s.frames m (0 + 1) 0 = Option.none := by
        unfold findFrame
        simp only [hg, hasEntry, hh, Bool.false_eq_true, if_false, hp]
      rw [this]
      simp only [updFrame, hg, hp]
  refine ⟨defineMacroSt s 0 m v, ?_, ?_, ?_, ?_⟩
  · show Evals P 0 (.pair (.sym "define-macro") _) s _ _
    rw [evals_form (f := .defineMacro) hk (by decide)]
    simp only [evalForm, evalDefineMacro, uncons, hmp, modSt_bind]
    rfl
  · rw [hst]
    refine .own (f := { g with entries := upsert m v g.entries }) ?_ (lookup_upsert_self _ _ _)
    have := (List.getElem?_eq_some_iff.1 hg).1
    simp [this]
  · rw [hst]
    exact ⟨_, rfl, rfl, rfl, fun x hx => lookup_upsert_ne hx _ _⟩
  · rw [hst]

/-- `(define-macro (swap a b) (list b a))` and `(swap 1 list)`: the operands reach the macro unevaluated, the result `(list 1)` is evaluated. -/
example : ∃ s' s'', Evals Demo.prims 0 (macroDef "swap" (paramList ["a", "b"] Option.none) [listOf [.sym "list", .sym "b", .sym "a"]]) Demo.s0
      (.ok .none) s' ∧
    Evals Demo.prims 0 (macroUse "swap" [.num 1, .sym "list"]) s' (.ok (listOf [.num 1])) s'' := by
  let md := macroOf ["a", "b"] Option.none [listOf [.sym "list", .sym "b", .sym "a"]] 0
  let s1 : St Unit := { Demo.s0 with frames := [⟨("swap", md) :: Demo.builtins, Option.none, Option.none⟩] }
  refine ⟨s1, { s1 with frames := s1.frames ++ [⟨[("b", .sym "list"), ("a", .num 1)], some 0, Option.none⟩] }, ⟨3, rfl⟩, ?_⟩
  refine (c60_use_partial (P := Demo.prims) (o := .ok (listOf [.num 1])) (s := s1) (me := 0) (ps := ["a", "b"]) (rest := Option.none)
    (body := [listOf [.sym "list", .sym "b", .sym "a"]]) (t := listOf [.sym "list", .num 1])
    (.own (f := ⟨("swap", md) :: Demo.builtins, Option.none, Option.none⟩) rfl rfl) (by decide) (forms := [.num 1, .sym "list"]) rfl rfl (.last ⟨4, rfl⟩) ?_
    ⟨_, _, rfl, .inl rfl⟩).2 ⟨4, rfl⟩
  refine .pair ?_ (.atom (by intro a d h; cases h)) (.pair (by intro x h; cases h) (.atom (by intro a d h; cases h)) (.atom (by intro a d h; cases h)))
  rintro x hx ⟨f, v, hf, hv, hi⟩
  cases hx
  cases hf
  simp [Demo.builtins, List.lookup] at hv
  subst hv
  cases hi

/-- A macro of one parameter receives the *list* of its operands. -/
theorem c60_counterexample : ∃ s' s'', Evals Demo.prims 0 (macroDef "m" (paramList ["x"] Option.none) [listOf [.sym "list", quoted (.sym "quote"), .sym "x"]])
      Demo.s0 (.ok .none) s' ∧
    Evals Demo.prims 0 (macroUse "m" [.num 1]) s' (.ok (listOf [.num 1])) s'' :=
  let md : V := .macro (.sym "x") (listOf [listOf [.sym "list", quoted (.sym "quote"), .sym "x"]]) 0
  ⟨{ Demo.s0 with frames := [⟨("m", md) :: Demo.builtins, Option.none, Option.none⟩] }, _, ⟨3, rfl⟩, ⟨7, rfl⟩⟩

/-- A macro whose expansion is a symbol returns the symbol, it is not evaluated: `(define-macro (m) 'car)`, `(m)`. -/
theorem c60_atom_counterexample : ∃ s' s'', Evals Demo.prims 0 (macroDef "m" .nil [quoted (.sym "car")]) Demo.s0 (.ok .none) s' ∧
    Evals Demo.prims 0 (macroUse "m" []) s' (.ok (.sym "car")) s'' :=
  let md : V := .macro .nil (listOf [quoted (.sym "car")]) 0
  ⟨{ Demo.s0 with frames := [⟨("m", md) :: Demo.builtins, Option.none, Option.none⟩] }, _, ⟨3, rfl⟩, ⟨7, rfl⟩⟩

end Pscm.Ev
