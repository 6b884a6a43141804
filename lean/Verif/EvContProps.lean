import Verif.EvWindProps
/-!
# C97: call/cc
-/
namespace Pscm
open Ev
variable {σ : Type} {P : Prims σ}

/-- The state in which the argument of `call/cc` is called: the continuation number `s.next` is captured, with the active winds and the current
module. -/
def capturing (s : St σ) : St σ := { s with next := s.next + 1, live := s.next :: s.live, conts := ⟨s.next, s.winds, s.cur⟩ :: s.conts }

/-- What `(call/cc f)` does. -/
inductive CallCCRule (P : Prims σ) (f : V) (s : St σ) : Out V → St σ → Prop
  /-- `f` returns: so does the form, with the same value -/
  | returns {v s1} : Applies P f [.cont s.next] (capturing s) (.ok v) s1 → CallCCRule P f s (.ok v) { s1 with live := s.live }
  /-- the continuation is invoked with `v`: the form returns `v`, and the current module is what it was -/
  | invoked {v s1} : Applies P f [.cont s.next] (capturing s) (.stop (.esc s.next v)) s1 →
      CallCCRule P f s (.ok v) { s1 with live := s.live, cur := s.cur }
  /-- everything else passes through -/
  | passes {e s1} : Applies P f [.cont s.next] (capturing s) (.stop e) s1 → (∀ v, e ≠ .esc s.next v) → CallCCRule P f s (.stop e) s1

theorem ctlWF_capturing {s : St σ} (w : CtlWF s) : CtlWF (capturing s) := by
  refine ⟨fun c hc => ?_, fun i hi => ?_⟩
  · have := w.catches c hc; simp only [capturing]; omega
  · rcases List.mem_cons.1 hi with rfl | hi
    · simp [capturing]
    · have := w.live i hi; simp only [capturing]; omega

theorem run_cont {env : EnvId} {id : Nat} {s : St σ} : run P (.eval env (.cont id)) s = some (.ok (.cont id), s) := by
  rw [run_eq]; rfl

/-- A continuation evaluates to itself, so it can be passed unquoted. -/
theorem applies_cont {f : V} {id : Nat} {s s' : St σ} {o : Out V} {env : EnvId} (h : Applies P f [.cont id] s o s') :
    run P (.eval env (listOf [f, .cont id])) s = some (o, s') := by
  rw [run_eq]
  show evalPair P (run P) env f (.pair (.cont id) .nil) s = _
  cases h with
  | @closure ps rest body penv fr vs s o s' hnd hc hf hs =>
    show applyProc (run P) env _ _ _ [.cont id] s = _
    unfold applyProc
    simp only [bind_apply, newEnv_apply hf, splitParams_paramList]
    have hb : ∀ (s : St σ) pe, bindParams (run P) env pe (ps.map V.sym) rest [.cont id] s = bindValues pe (ps.map V.sym) rest [.cont id] s := by
      intro s pe
      cases ps with
      | nil =>
        cases rest with
        | none => simp [CountOk] at hc
        | some r => simp only [List.map_nil, bindParams, evalArgs, bind_apply, run_cont, pure_apply, bindValues]
      | cons p ps =>
        have : ps = [] := by
          cases rest with
          | none => simpa [CountOk] using hc
          | some r => simpa [CountOk] using hc
        subst this
        simp only [List.map_cons, List.map_nil, bindParams, bindValues, bind_apply, run_cont]
        cases rest <;> simp only [bindParams, bindValues, evalArgs, bind_apply, pure_apply]
    rw [hb, bindValues_apply (f := ⟨[], some penv, fr.modl⟩) ps rest _ (by simp) hnd (by simp) hc]
    simp only [updFrame_push, List.append_nil]
    exact seq_nodes hs
  | @builtin n a vs s o s' hn ha hp =>
    show evalFuncCall P (run P) env n a (listOf [.cont id]) s = _
    have hn' := hn
    simp only [interpreterNames, List.mem_cons, not_or, List.not_mem_nil, not_false_eq_true, and_true] at hn'
    obtain ⟨h1, h2, h3, h4, h5, h6, h7, h8, h9, h10, h11, h12, h13, h14, h15, g1, g2, g3, g4, g5, g6, g7, g8, g9, g10⟩ := hn'
    simp only [evalFuncCall, isCallCC, h11, h12, h13, h14, h15, nodes_listOf]
    have hx : callFunc P (run P) n a [.cont id] s = some (o, s') := by rw [callFunc_ext hn ha, extPrim_of hp]
    simpa [evalArgs, bind_apply, run_cont, pure_apply] using hx

/-- C97: `(call/cc f)` calls `f` once with the continuation and follows the rules above.  Partial: the continuation is invoked only while the
`call/cc` is active. -/
theorem c97_callcc_partial {env : EnvId} {n : Name} {fe f : V} {s0 s s' : St σ} {o : Out V} (w : CtlWF s)
    (hn : n = "call/cc" ∨ n = "call-with-current-continuation") (hm : NoMacro s0 n) (he : Evals P env fe s0 (.ok f) s)
    (hr : CallCCRule P f s o s') : Evals P env (listOf [.sym n, fe]) s0 o s' := by
  show Evals P env (.pair (.sym n) (listOf [fe])) s0 o s'
  rw [evals_form (f := .callcc) hm (by rcases hn with rfl | rfl <;> decide)]
  show evalCallCC (run P) env (nodes (listOf [fe])) s0 = _
  rw [nodes_listOf]
  show (run P (.eval env fe) >>= fun f => withCont fun k => run P (.eval env (listOf [f, k]))) s0 = _
  rw [bind_apply, evals_iff.1 he]
  show EM.handle (run P (.eval env (listOf [f, .cont s.next]))) _ (capturing s) = _
  unfold EM.handle
  have w1 := ctlWF_capturing w
  cases hr with
  | @returns v s1 h1 =>
    rw [applies_cont h1]
    have hl : s1.live = s.next :: s.live := (applies_ctl h1 w1).2.2.1
    show some (Out.ok v, { s1 with live := (s1.live.dropWhile (· ≠ s.next)).tail }) = _
    rw [hl]; simp
  | @invoked v s1 h1 =>
    rw [applies_cont h1]
    have hl : s1.live.dropWhile (· ≠ s.next) = s.next :: s.live :=
      (ctl_enter_stop (applies_ctl h1) w w1 rfl rfl ⟨[], rfl, by simp⟩).2.2.2.2.1
    simp only [if_true]
    show some (Out.ok v, { s1 with live := (s1.live.dropWhile (· ≠ s.next)).tail, cur := s.cur }) = _
    rw [hl]; rfl
  | @passes e s1 h1 hne =>
    rw [applies_cont h1]
    cases e with
    | esc c v =>
      have hc : c ≠ s.next := by rintro rfl; exact hne v rfl
      simp only [if_neg hc]
      rfl
    | _ => rfl

/-- The rules are met: `(call/cc (lambda (k) (+ 1 (k 7))))` is 7 and `(call/cc (lambda (k) 7))` is 7; a jump out of a module restores the current
module. -/
example : (∃ s', Evals Demo.prims 0 (listOf [.sym "call/cc", listOf [.sym "lambda", listOf [.sym "k"],
      listOf [.sym "+", .num 1, listOf [.sym "k", .num 7]]]]) Demo.s0 (.ok (.num 7)) s') ∧
    (∃ s', Evals Demo.prims 0 (listOf [.sym "begin", listOf [.sym "call/cc", listOf [.sym "lambda", listOf [.sym "k"],
      listOf [.sym "define-module", listOf [.sym "m"]], listOf [.sym "k", .num 7]]], listOf [.func "current-module" 0]]) Demo.s0 (.ok (.modl 0)) s') :=
  ⟨Demo.evals_of 20 (by decide +kernel), Demo.evals_of 20 (by decide +kernel)⟩

/-- The hypotheses of `c97_callcc_partial` are met by a procedure that invokes the continuation. -/
example : ∃ s', CallCCRule Demo.prims (.proc (listOf [.sym "k"]) (listOf [listOf [.sym "+", .num 1, listOf [.sym "k", .num 7]]]) 0) Demo.s0
    (.ok (.num 7)) s' :=
  ⟨_, .invoked (.closure (ps := ["k"]) (rest := Option.none) (body := [listOf [.sym "+", .num 1, listOf [.sym "k", .num 7]]]) (by simp) rfl rfl
    (.last ⟨12, rfl⟩))⟩

end Pscm
