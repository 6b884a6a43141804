import Verif.EvLoadProps
import Verif.EvMacroProps
import Verif.EvControlProps
/-!
# C95 – C97: macroexpand, defined?, call/cc
-/
namespace Pscm
open Ev
variable {σ : Type} {P : Prims σ}

/-! ## C95: macro expansion as a function -/

/-- What the name denotes at top level: the binding of the global environment, else the variable of the current module. -/
inductive TopValue (s : St σ) (x : Name) (v : V) : Prop
  | global {g : Frame} : s.frames[0]? = some g → g.entries.lookup x = some v → TopValue s x v
  | module {g : Frame} {u : Nat} : s.frames[0]? = some g → g.entries.lookup x = Option.none → FirstBinding s.mods s.root s.cur x u v → TopValue s x v

/-- The global environment has no parent and belongs to no module (as `init` makes it). -/
def TopLevel (s : St σ) : Prop := ∃ g : Frame, s.frames[0]? = some g ∧ g.parent = Option.none ∧ g.modl = Option.none

/-- The expression is a call of a top-level macro. -/
def MacroCall (s : St σ) (e : V) : Prop := ∃ x rest ps b me, e = .pair (.sym x) rest ∧ TopValue s x (.macro ps b me)

/-- One expansion step, from `(m form ...)`: the parameters of the macro are bound to the forms in a new frame below its environment, and its body
is evaluated there. -/
inductive ExpandStep (P : Prims σ) : V → St σ → Out V → St σ → Prop
  | mk {m ps rest body me f forms s o s'} : TopValue s m (macroOf ps rest body me) → (ps ++ rest.toList).Nodup → CountOk ps rest forms.length →
      s.frames[me]? = some f →
      SeqEval (Evals P) s.frames.length body { s with frames := s.frames ++ [⟨callBindings ps rest forms, some me, f.modl⟩] } o s' →
      ExpandStep P (macroUse m forms) s o s'

/-- Expanding until the expression is no macro call. -/
inductive FullExpansion (P : Prims σ) : V → St σ → Out V → St σ → Prop
  | done {e s} : ¬ MacroCall s e → FullExpansion P e s (.ok e) s
  | step {e s t s1 o s'} : ExpandStep P e s (.ok t) s1 → t ≠ e → FullExpansion P t s1 o s' → FullExpansion P e s o s'
  | fail {e s x s'} : ExpandStep P e s (.stop x) s' → FullExpansion P e s (.stop x) s'

theorem lookOwn_zero {s : St σ} {g : Frame} (hg : s.frames[0]? = some g) (x : Name) : lookOwn s.frames 0 x = g.entries.lookup x := by
  simp [lookOwn, hg, lookup_eq_findEntry]

theorem envSearch_top {s : St σ} (ht : TopLevel s) (x : Name) : envSearch s 0 x =
    match lookOwn s.frames 0 x with
    | some v => some v
    | Option.none => moduleValue s.mods s.root s.cur x := by
  obtain ⟨g, hg, hp, hm⟩ := ht
  have h1 : lookChain s.frames 0 x = lookOwn s.frames 0 x := by
    unfold lookChain findFrame lookOwn hasEntry
    rw [hg]
    cases h : findEntry x g.entries with
    | some v => simp [hg, h]
    | none => simp [hp, h]
  have h2 : chainValue s 0 x = Option.none := by
    unfold chainValue chainModule
    simp [hg, hp, hm]
  unfold envSearch
  rw [h1, h2]
  cases lookOwn s.frames 0 x with
  | some v => rfl
  | none =>
    simp only
    rw [searchModule_eq]
    cases moduleValue s.mods s.root s.cur x <;> simp

theorem topValue_iff {s : St σ} (ht : TopLevel s) {x : Name} {v : V} : envSearch s 0 x = some v ↔ TopValue s x v := by
  rw [envSearch_top ht]
  obtain ⟨g, hg, _, _⟩ := ht
  rw [lookOwn_zero hg]
  constructor
  · intro h
    cases hl : g.entries.lookup x with
    | some w => rw [hl] at h; cases h; exact .global hg hl
    | none =>
      rw [hl] at h
      obtain ⟨u, hu⟩ := moduleValue_some.1 h
      exact .module hg hl hu
  · intro h
    cases h with
    | global hg' hl => rw [hg] at hg'; cases hg'; rw [hl]
    | module hg' hl hu => rw [hg] at hg'; cases hg'; rw [hl]; exact moduleValue_some.2 ⟨_, hu⟩

theorem macroexpand1_step {e : V} {s s' : St σ} {o : Out V} (ht : TopLevel s) (h : ExpandStep P e s o s') :
    macroexpand1 (run P) e s = some ((match o with | .ok t => .ok (some t) | .stop x => .stop x), s') := by
  obtain ⟨htv, hnd, hc, hf, hs⟩ := h
  show (EM.getSt >>= _) s = _
  rw [Ev.getSt_bind, (topValue_iff ht).2 htv]
  show (expandCall (run P) _ _ _ (nodes (listOf _)) >>= fun r => pure (some r)) s = _
  rw [nodes_listOf, bind_apply, expandCall_ok hnd hc hf hs]
  cases o <;> rfl

theorem macroexpand1_none {e : V} {s : St σ} (ht : TopLevel s) (h : ¬ MacroCall s e) : macroexpand1 (run P) e s = some (.ok Option.none, s) := by
  unfold macroexpand1
  split
  · rename_i x rest
    rw [Ev.getSt_bind]
    cases hv : envSearch s 0 x with
    | none => rfl
    | some v =>
      cases v with
      | «macro» ps b me => exact absurd ⟨x, rest, ps, b, me, rfl, (topValue_iff ht).1 hv⟩ h
      | _ => rfl
  · rfl

theorem callPrim_me1 {v : V} {s : St σ} : callPrim P (run P) "macroexpand-1" [v] s = (macroexpand1 (run P) v >>= fun r => pure (r.getD v)) s := by
  simp [callPrim]

/-- C95: `(macroexpand-1 e)` of a call of a top-level macro is what the macro's body makes of the operand forms (or the error it ends in). -/
theorem c95_expand1 {env : EnvId} {e v : V} {s s1 s' : St σ} {o : Out V} (he : Evals P env e s (.ok v) s1) (ht : TopLevel s1) (h : ExpandStep P v s1 o s') :
    Evals P env (listOf [.func "macroexpand-1" 1, e]) s o s' := by
  rw [evals_call1 (by decide) he, callPrim_me1, bind_apply, macroexpand1_step ht h]
  cases o <;> rfl

/-- C95: anything else is returned unchanged, and nothing is evaluated. -/
theorem c95_unchanged {env : EnvId} {e v : V} {s s1 : St σ} (he : Evals P env e s (.ok v) s1) (ht : TopLevel s1) (h : ¬ MacroCall s1 v) :
    Evals P env (listOf [.func "macroexpand-1" 1, e]) s (.ok v) s1 := by
  rw [evals_call1 (by decide) he, callPrim_me1, bind_apply, macroexpand1_none ht h]
  rfl

theorem topLevel_afterwards {s s' : St σ} (h : Afterwards P s s') (ht : TopLevel s) : TopLevel s' := by
  obtain ⟨g, h1, h2, h3⟩ := ht
  obtain ⟨g', k1, k2, k3, _⟩ := afterwards_ext h 0 g h1
  exact ⟨g', k1, k2.trans h2, k3.trans h3⟩

theorem topLevel_push {s : St σ} {f : Frame} (ht : TopLevel s) : TopLevel { s with frames := s.frames ++ [f] } := by
  obtain ⟨g, h1, h2, h3⟩ := ht
  exact ⟨g, by
    show (s.frames ++ [f])[0]? = _
    rw [List.getElem?_append_left (List.getElem?_eq_some_iff.1 h1).1, h1], h2, h3⟩

theorem seqEval_top {env : EnvId} {xs : List V} {s s' : St σ} {o : Out V} (h : SeqEval (Evals P) env xs s o s') (ht : TopLevel s) : TopLevel s' :=
  seqEval_run (R := fun s s' : St σ => TopLevel s → TopLevel s') (fun _ _ _ h k w => k (h w))
    (fun {t s s' o} hr w => by
      obtain ⟨g, h1, h2, h3⟩ := w
      obtain ⟨g', k1, k2, k3, _⟩ := (run_ext hr).frames 0 g h1
      exact ⟨g', k1, k2.trans h2, k3.trans h3⟩) h ht

theorem mexpand_full {e : V} {s s' : St σ} {o : Out V} (ht : TopLevel s) (h : FullExpansion P e s o s') : run P (.mexpand e) s = some (o, s') := by
  induction h with
  | done hn =>
    rw [run_eq]
    show macroexpandLoop (run P) _ _ = _
    unfold macroexpandLoop
    rw [bind_apply, macroexpand1_none ht hn]
    rfl
  | @step e s t s1 o s' hs hne _ ih =>
    have ht1 : TopLevel s1 := by
      obtain ⟨_, _, _, _, hq⟩ := hs
      exact seqEval_top hq (topLevel_push ht)
    rw [run_eq]
    show macroexpandLoop (run P) _ _ = _
    unfold macroexpandLoop
    rw [bind_apply, macroexpand1_step ht hs]
    simp only [if_neg hne]
    exact ih ht1
  | fail hs =>
    rw [run_eq]
    show macroexpandLoop (run P) _ _ = _
    unfold macroexpandLoop
    rw [bind_apply, macroexpand1_step ht hs]

/-- C95: `(macroexpand e)` repeats the expansion until the expression is not a macro call.  Partial: no expansion is equal to the expression it
comes from (the loop then compares addresses). -/
theorem c95_expand_partial {env : EnvId} {e v : V} {s s1 s' : St σ} {o : Out V} (he : Evals P env e s (.ok v) s1) (ht : TopLevel s1)
    (h : FullExpansion P v s1 o s') : Evals P env (listOf [.func "macroexpand" 1, e]) s o s' := by
  rw [evals_call1 (by decide) he]
  have : callPrim P (run P) "macroexpand" [v] s1 = run P (.mexpand v) s1 := by simp [callPrim]
  rw [this]
  exact mexpand_full ht h

/-- C95: what `macroexpand-1` shows is what the evaluator evaluates: a top-level use of a macro of the global environment has the outcome of its
expansion.  Partial as C60: expansions that are calls and contain no further macro calls. -/
theorem c95_agrees_partial {m : Name} {ps : List Name} {rest : Option Name} {body forms : List V} {me : EnvId} {f g : Frame} {t : V} {s s1 s' : St σ}
    {o : Out V} (hg : s.frames[0]? = some g) (hm : g.entries.lookup m = some (macroOf ps rest body me)) (ht : TopLevel s) (hq : NoMacro s "quote")
    (hnd : (ps ++ rest.toList).Nodup) (hc : CountOk ps rest forms.length) (hf : s.frames[me]? = some f)
    (hx : SeqEval (Evals P) s.frames.length body { s with frames := s.frames ++ [⟨callBindings ps rest forms, some me, f.modl⟩] } (.ok t) s1)
    (hno : NoHead (FrameMacro s1 0) t) (hcf : CallForm t) :
    Evals P 0 (listOf [.func "macroexpand-1" 1, quoted (macroUse m forms)]) s (.ok t) s1 ∧
    (Evals P 0 (macroUse m forms) s o s' ↔ Evals P 0 t s1 o s') :=
  ⟨c95_expand1 (evals_quoted (hq.quoteOk 0)) ht (.mk (.global hg hm) hnd hc hf hx),
   c60_use_partial (.own hg hm) hnd hc hf hx hno hcf⟩

namespace Demo
open Ev.Demo
/-- `(define-macro (twice . r) (cons '+ (cons (car r) r)))` and `(define-macro (four . r) (list 'twice (cons 'twice r)))`. -/
def defTwice : V := l [y "define-macro", .pair (y "twice") (y "r"), l [y "cons", quoted (y "+"), l [y "cons", l [y "car", y "r"], y "r"]]]
def defFour : V := l [y "define-macro", .pair (y "four") (y "r"), l [y "list", quoted (y "twice"), l [y "cons", quoted (y "twice"), y "r"]]]
def expand1 (e : V) : V := l [.func "macroexpand-1" 1, quoted e]
def expandAll (e : V) : V := l [.func "macroexpand" 1, quoted e]
end Demo

open Demo in
/-- Expansion of a use of a macro whose expansion is a use of another macro. -/
example : (∃ s', Evals Demo.prims 0 (prog [defTwice, defFour, expand1 (listOf [.sym "four", .num 5])]) Demo.s0
      (.ok (listOf [.sym "twice", listOf [.sym "twice", .num 5]])) s') ∧
    (∃ s', Evals Demo.prims 0 (prog [defTwice, defFour, expandAll (listOf [.sym "four", .num 5])]) Demo.s0
      (.ok (listOf [.sym "+", listOf [.sym "twice", .num 5], listOf [.sym "twice", .num 5]])) s') ∧
    (∃ s', Evals Demo.prims 0 (prog [defTwice, defFour, listOf [.sym "four", .num 5]]) Demo.s0 (.ok (.num 20)) s') :=
  ⟨Demo.evals_of 30 (by decide +kernel), Demo.evals_of 30 (by decide +kernel), Demo.evals_of 30 (by decide +kernel)⟩

/-- The hypotheses of `c95_expand1`, `c95_expand_partial` are met in the state after `(define-macro (m . r) (cons 'car r))`. -/
example : ∃ s1, Evals Demo.prims 0 (macroDef "m" (.sym "r") [listOf [.sym "cons", quoted (.sym "car"), .sym "r"]]) Demo.s0 (.ok .none) s1 ∧ TopLevel s1 ∧
    ∃ s2, ExpandStep Demo.prims (macroUse "m" [.num 1]) s1 (.ok (listOf [.sym "car", .num 1])) s2 ∧
      FullExpansion Demo.prims (macroUse "m" [.num 1]) s1 (.ok (listOf [.sym "car", .num 1])) s2 := by
  let s1 : St Unit := defineMacroSt Demo.s0 0 "m" (macroOf [] (some "r") [listOf [.sym "cons", quoted (.sym "car"), .sym "r"]] 0)
  let s2 : St Unit := { s1 with frames := s1.frames ++ [⟨[("r", listOf [.num 1])], some 0, Option.none⟩] }
  have h2 : ExpandStep Demo.prims (macroUse "m" [.num 1]) s1 (.ok (listOf [.sym "car", .num 1])) s2 :=
    .mk (ps := []) (rest := some "r") (body := [listOf [.sym "cons", quoted (.sym "car"), .sym "r"]]) (me := 0) (.global rfl rfl) (by simp)
      (by simp [CountOk]) rfl (.last ⟨9, rfl⟩)
  refine ⟨s1, ⟨9, rfl⟩, ⟨_, rfl, rfl, rfl⟩, s2, h2, .step h2 (by decide) (.done ?_)⟩
  have ht : TopLevel s2 := ⟨_, rfl, rfl, rfl⟩
  have hc : envSearch s2 0 "car" = some (.func "car" 1) := by decide +kernel
  rintro ⟨x, rest, ps, b, me, he, hv⟩
  cases he
  rw [← topValue_iff ht, hc] at hv
  cases hv

/-- C95 fails inside procedures: `macroexpand-1` knows only top-level macros, the evaluator also those of the current frame.
`(let () (define-macro (m . r) (cons 'car r)) (macroexpand-1 '(m '(1))))` is `(m '(1))`, although `(m '(1))` there is 1. -/
theorem c95_counterexample :
    (∃ s', Evals Demo.prims 0 (listOf [.sym "let", .nil, macroDef "m" (.sym "r") [listOf [.sym "cons", quoted (.sym "car"), .sym "r"]],
      Demo.expand1 (macroUse "m" [quoted (listOf [.num 1])])]) Demo.s0 (.ok (macroUse "m" [quoted (listOf [.num 1])])) s') ∧
    (∃ s', Evals Demo.prims 0 (listOf [.sym "let", .nil, macroDef "m" (.sym "r") [listOf [.sym "cons", quoted (.sym "car"), .sym "r"]],
      macroUse "m" [quoted (listOf [.num 1])]]) Demo.s0 (.ok (.num 1)) s') :=
  ⟨Demo.evals_of 30 (by decide +kernel), Demo.evals_of 30 (by decide +kernel)⟩

/-! ## C96: defined? -/

/-- C96: `(defined? 'x)` is true exactly if the variable `x` can be referenced at top level. -/
theorem c96_defined {env : EnvId} {e : V} {x : Name} {s s1 : St σ} (he : Evals P env e s (.ok (.sym x)) s1) (ht : TopLevel s1) (hk : isKeyword x = false) :
    (Evals P env (listOf [.func "defined?" 1, e]) s (.ok (.bool true)) s1 ↔ ∃ v, Evals P 0 (.sym x) s1 (.ok v) s1) ∧
    (Evals P env (listOf [.func "defined?" 1, e]) s (.ok (.bool false)) s1 ↔ ∃ t, Evals P 0 (.sym x) s1 (.stop t) s1) := by
  have h1 : ∀ b, Evals P env (listOf [.func "defined?" 1, e]) s (.ok (.bool b)) s1 ↔ isDefined s1 x = b := by
    intro b
    rw [evals_call1 (by decide) he]
    have : callPrim P (run P) "defined?" [.sym x] s1 = some (.ok (.bool (isDefined s1 x)), s1) := by
      show modPrim P (run P) "defined?" [.sym x] s1 = _
      unfold modPrim
      rw [Ev.getSt_bind]
      rfl
    rw [this]
    simp
  have h2 : ∀ o, Evals P 0 (.sym x) s1 o s1 ↔ lookupSymbol 0 x s1 = some (o, s1) := by
    intro o
    rw [evals_step]
    show (if isKeyword x = true then pure (.sym x) else lookupSymbol 0 x : EM σ V) s1 = _ ↔ _
    rw [hk]
    simp
  have h3 : isDefined s1 x = (envSearch s1 0 x).isSome := by
    rw [envSearch_top ht]
    have hl : lookChain s1.frames 0 x = lookOwn s1.frames 0 x := by
      obtain ⟨g, hg, hp, _⟩ := ht
      unfold lookChain findFrame lookOwn hasEntry
      rw [hg]
      cases h : findEntry x g.entries with
      | some v => simp [hg, h]
      | none => simp [hp, h]
    unfold isDefined
    rw [hl, searchModule_eq]
    cases lookOwn s1.frames 0 x <;> simp
  simp only [h1, h2, h3]
  unfold lookupSymbol
  simp only [Ev.getSt_bind]
  cases envSearch s1 0 x with
  | some v => simp [pure_apply]
  | none => simp [evalError, throwKey]

/-- C96 fails for local variables: `(let ((x 1)) (defined? 'x))` is `#f`. -/
theorem c96_counterexample : ∃ s', Evals Demo.prims 0 (listOf [.sym "let", listOf [listOf [.sym "x", .num 1]],
    listOf [.func "defined?" 1, quoted (.sym "x")]]) Demo.s0 (.ok (.bool false)) s' := Demo.evals_of 20 (by decide +kernel)

example : Evals Demo.prims 0 (listOf [.func "defined?" 1, quoted (.sym "car")]) Demo.s0 (.ok (.bool true)) Demo.s0 ∧
    Evals Demo.prims 0 (listOf [.func "defined?" 1, quoted (.sym "nope")]) Demo.s0 (.ok (.bool false)) Demo.s0 :=
  ⟨((c96_defined ⟨5, rfl⟩ ⟨_, rfl, rfl, rfl⟩ (by decide)).1).2 ⟨_, ⟨3, rfl⟩⟩, ((c96_defined ⟨5, rfl⟩ ⟨_, rfl, rfl, rfl⟩ (by decide)).2).2 ⟨_, ⟨3, rfl⟩⟩⟩

end Pscm
