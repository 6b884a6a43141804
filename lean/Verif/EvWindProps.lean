import Verif.EvControlProps
/-!
# C63, C64, C65: dynamic-wind

`s.winds` is the list of active winds, innermost first; each has an in guard and an out guard.
-/
namespace Pscm
open Ev
variable {σ : Type} {P : Prims σ}

/-! ## Specification -/

/-- A procedure without parameters. -/
def Thunk (v : V) : Prop := ∃ body env, v = .proc .nil (listOf body) env

/-- The state in which the body of a `dynamic-wind` with in guard `i` and out guard `o` runs. -/
def winding (i o : V) (s : St σ) : St σ := { s with next := s.next + 1, winds := ⟨s.next, i, o⟩ :: s.winds }

/-- The program text `(dynamic-wind ie te oe)`. -/
abbrev windExpr (ie te oe : V) : V := listOf [.sym "dynamic-wind", ie, te, oe]

/-- Guards called one after the other. -/
inductive RunOuts (P : Prims σ) : List V → St σ → St σ → Prop
  | nil {s} : RunOuts P [] s s
  | cons {g gs s v s1 s'} : Applies P g [] s (.ok v) s1 → RunOuts P gs s1 s' → RunOuts P (g :: gs) s s'

/-- Winds entered one after the other: the in guard is called, then the wind is active. -/
inductive RunIns (P : Prims σ) : List Wind → St σ → St σ → Prop
  | nil {s} : RunIns P [] s s
  | cons {w ws s v s1 s'} : Applies P w.inG [] s (.ok v) s1 → RunIns P ws { s1 with winds := w :: s1.winds } s' → RunIns P (w :: ws) s s'

/-- What a jump from `s` to a point whose active winds are `target` has to do, `left` and `entered` being the winds left and entered and
`common` those that stay active: call the out guards of `left`, innermost first, then the in guards of `entered`, outermost first. -/
structure JumpSpec (P : Prims σ) (left entered common target : List Wind) (s s' : St σ) : Prop where
  before : s.winds = left ++ common
  after : target = entered ++ common
  maximal : ∀ w ∈ left, ∀ w' ∈ entered, w.id ≠ w'.id
  distinct : ∀ w ∈ left ++ entered, ∀ c ∈ common, w.id ≠ c.id
  guards : ∃ s1, RunOuts P (left.map Wind.outG) s s1 ∧ RunIns P entered.reverse { s1 with winds := common } s'

/-! ## Lemmas -/

theorem thunk_iff {body : List V} {penv : EnvId} {s s' : St σ} {o : Out V} (env : EnvId) (ho : o ≠ .stop .ub) (ho' : o ≠ .stop .abort) :
    applyProc (run P) env .nil (listOf body) penv [] s = some (o, s') ↔ Applies P (.proc .nil (listOf body) penv) [] s o s' := by
  constructor
  · intro h
    unfold applyProc at h
    rw [bind_apply] at h
    cases hf : s.frames[penv]? with
    | none =>
      simp only [newEnv, hf] at h
      cases h
      exact absurd rfl ho
    | some f =>
      simp only [newEnv_apply hf, splitParams, bind_apply, bindParams, pure_apply, nodes_listOf] at h
      refine .closure (ps := []) (rest := Option.none) (by simp) rfl hf ?_
      cases body with
      | nil =>
        simp only [evalSeq] at h
        cases h
        exact absurd rfl ho'
      | cons x xs => exact evalSeq_iff.1 h
  · intro h
    exact applies_nil_applyProc rfl h env

theorem windExpr_run {env : EnvId} {ie te oe i t o : V} {s0 s : St σ} (hm : NoMacro s0 "dynamic-wind")
    (h : ArgsEval (Evals P) env [ie, te, oe] s0 (.ok [i, t, o]) s) (hi : Thunk i) (ht : Thunk t) (ho : Thunk o) :
    ∃ ib ie' tb te' ob oe', i = .proc .nil (listOf ib) ie' ∧ t = .proc .nil (listOf tb) te' ∧ o = .proc .nil (listOf ob) oe' ∧
    ∀ out s', Evals P env (windExpr ie te oe) s0 out s' ↔
      ((applyProc (run P) env .nil (listOf ib) ie' [] >>= fun _ => EM.getSt >>= fun s1 =>
        EM.modSt (fun s => winding i o s) >>= fun _ =>
        applyProc (run P) env .nil (listOf tb) te' [] >>= fun r =>
        EM.modSt (fun s' => { s' with winds := s1.winds }) >>= fun _ =>
        applyProc (run P) env .nil (listOf ob) oe' [] >>= fun _ => pure r : EM σ V) s = some (out, s')) := by
  obtain ⟨ib, ie', rfl⟩ := hi
  obtain ⟨tb, te', rfl⟩ := ht
  obtain ⟨ob, oe', rfl⟩ := ho
  refine ⟨ib, ie', tb, te', ob, oe', rfl, rfl, rfl, fun out s' => ?_⟩
  show Evals P env (.pair (.sym "dynamic-wind") (listOf [ie, te, oe])) s0 _ s' ↔ _
  rw [evals_form (f := .dynamicWind) hm (by decide)]
  cases h with
  | cons h1 h2 =>
    cases h2 with
    | cons h2 h3 =>
      cases h3 with
      | cons h3 h4 =>
        cases h4
        simp only [evalForm, nodes_listOf, evalDynamicWind]
        rw [bind_apply, evals_iff.1 h1]
        simp only
        rw [bind_apply, evals_iff.1 h2]
        simp only
        rw [bind_apply, evals_iff.1 h3]
        rfl

/-! ## C63 -/

/-- C63: `(dynamic-wind in body out)` returns `v` exactly if the in guard, the body and the out guard, each called once and in this order, return,
the body with `v`; the wind is active exactly during the body. -/
theorem c63_dynamic_wind {env : EnvId} {ie te oe i t o v : V} {s0 s s' : St σ} (hm : NoMacro s0 "dynamic-wind")
    (h : ArgsEval (Evals P) env [ie, te, oe] s0 (.ok [i, t, o]) s) (hi : Thunk i) (ht : Thunk t) (ho : Thunk o) :
    Evals P env (windExpr ie te oe) s0 (.ok v) s' ↔
      ∃ a s1 s2 b, Applies P i [] s (.ok a) s1 ∧ Applies P t [] (winding i o s1) (.ok v) s2 ∧
        Applies P o [] { s2 with winds := s1.winds } (.ok b) s' := by
  obtain ⟨ib, ie', tb, te', ob, oe', rfl, rfl, rfl, hr⟩ := windExpr_run hm h hi ht ho
  rw [hr]
  constructor
  · intro hh
    rw [bind_eq_some] at hh
    rcases hh with ⟨a, s1, h1, hh⟩ | ⟨e, _, hh⟩
    · rw [Ev.getSt_bind, Ev.modSt_bind, bind_eq_some] at hh
      rcases hh with ⟨r, s2, h2, hh⟩ | ⟨e, _, hh⟩
      · rw [Ev.modSt_bind, bind_eq_some] at hh
        rcases hh with ⟨b, s3, h3, hh⟩ | ⟨e, _, hh⟩
        · cases hh
          exact ⟨a, s1, s2, b, (thunk_iff env (by simp) (by simp)).1 h1, (thunk_iff env (by simp) (by simp)).1 h2,
            (thunk_iff env (by simp) (by simp)).1 h3⟩
        · cases hh
      · cases hh
    · cases hh
  · rintro ⟨a, s1, s2, b, h1, h2, h3⟩
    rw [bind_apply, (thunk_iff env (by simp) (by simp)).2 h1]
    simp only [Ev.getSt_bind, Ev.modSt_bind]
    rw [bind_apply, (thunk_iff env (by simp) (by simp)).2 h2]
    simp only [Ev.modSt_bind]
    rw [bind_apply, (thunk_iff env (by simp) (by simp)).2 h3]
    rfl

end Pscm

/-! A world that records what is written to it. -/
namespace Pscm.Ev.Demo

/-- One builtin: `(emit x)` appends `x` to the record and returns it. -/
def logPrims : Prims (List V) where
  call := fun name args log =>
    match name, args with
    | "emit", [v] => .done (.ok v) (log ++ [v])
    | _, _ => .done (.raise "wrong-type-arg" .nil) log
  init := fun _ => .num 0
  file := fun _ _ => .missing

def log0 : St (List V) :=
  { frames := [⟨[("emit", .func "emit" 1), ("catch", .func "catch" (-2)), ("throw", .func "throw" (-2))], Option.none, Option.none⟩],
    mods := s0.mods, cur := 0, root := 0, proms := [], catches := [], live := [], winds := [], conts := [], next := 0, ext := [] }

/-- The record after evaluating `e` in the initial state, if it returns. -/
def logOf (fuel : Nat) (e : V) : Option (Out V × List V) :=
  (ev logPrims fuel (.eval 0 e) log0).map fun r => (r.1, r.2.ext)

theorem evals_log {e : V} {o : Out V} {log : List V} (n : Nat) (h : logOf n e = some (o, log)) :
    ∃ s', Evals logPrims 0 e log0 o s' ∧ s'.ext = log := by
  unfold logOf at h
  cases hr : ev logPrims n (.eval 0 e) log0 with
  | none => rw [hr] at h; cases h
  | some q =>
    rw [hr] at h
    simp only [Option.map_some, Option.some.injEq, Prod.mk.injEq] at h
    exact ⟨q.2, ⟨n, by rw [hr, ← h.1]⟩, h.2⟩

/-- The record and the number of active winds after evaluating `e` in the initial state, if it returns. -/
def windsOf (fuel : Nat) (e : V) : Option (Out V × List V × Nat) :=
  (ev logPrims fuel (.eval 0 e) log0).map fun r => (r.1, r.2.ext, r.2.winds.length)

theorem evals_winds {e : V} {o : Out V} {log : List V} {k : Nat} (n : Nat) (h : windsOf n e = some (o, log, k)) :
    ∃ s', Evals logPrims 0 e log0 o s' ∧ s'.ext = log ∧ s'.winds.length = k := by
  unfold windsOf at h
  cases hr : ev logPrims n (.eval 0 e) log0 with
  | none => rw [hr] at h; cases h
  | some q =>
    rw [hr] at h
    simp only [Option.map_some, Option.some.injEq, Prod.mk.injEq] at h
    exact ⟨q.2, ⟨n, by rw [hr, ← h.1]⟩, h.2⟩

/-- `(lambda () e)`. -/
def thunk (e : V) : V := listOf [.sym "lambda", .nil, e]
/-- `(emit i)` -/
def emit (i : Int) : V := listOf [.sym "emit", .num i]

end Pscm.Ev.Demo

namespace Pscm
open Ev
variable {σ : Type} {P : Prims σ}

/-- `(dynamic-wind (lambda () (emit i1)) (lambda () (dynamic-wind ... (emit b) ...)) (lambda () (emit o1)))` for a list of pairs `(i1, o1)`, ... -/
def nestedWinds (b : Int) : List (Int × Int) → V
  | [] => listOf [.func "emit" 1, .num b]
  | (i, o) :: ws => windExpr (Demo.thunk (listOf [.func "emit" 1, .num i])) (Demo.thunk (nestedWinds b ws))
      (Demo.thunk (listOf [.func "emit" 1, .num o]))

theorem log_thunk {s : St (List V)} {env : EnvId} {e : V} (h : NoMacro s "lambda") :
    Evals Demo.logPrims env (Demo.thunk e) s (.ok (.proc .nil (listOf [e]) env)) s := by
  show Evals Demo.logPrims env (.pair (.sym "lambda") (listOf [.nil, e])) s _ s
  rw [evals_form (f := .lambda) h (by decide)]
  rfl

theorem log_emit {s : St (List V)} {env : EnvId} {i : Int} :
    Evals Demo.logPrims env (listOf [.func "emit" 1, .num i]) s (.ok (.num i)) { s with ext := s.ext ++ [.num i] } := ⟨2, rfl⟩

theorem log_apply_emit {s : St (List V)} {env : EnvId} {f : Frame} {i : Int} (hf : s.frames[env]? = some f) :
    Applies Demo.logPrims (.proc .nil (listOf [listOf [.func "emit" 1, .num i]]) env) [] s (.ok (.num i))
      { s with frames := s.frames ++ [⟨[], some env, f.modl⟩], ext := s.ext ++ [.num i] } :=
  .closure (ps := []) (rest := Option.none) (by decide) rfl hf (.last log_emit)

/-- C63, every nesting: the guards of any number of nested `dynamic-wind` forms run in order around the innermost body. -/
theorem c63_nested (b : Int) (ws : List (Int × Int)) {env : EnvId} {s : St (List V)} (hm : ∀ x, NoMacro s x) (he : env < s.frames.length) :
    ∃ s', Evals Demo.logPrims env (nestedWinds b ws) s (.ok (.num b)) s' ∧ s'.winds = s.winds ∧
      s'.ext = s.ext ++ ws.map (fun w => V.num w.1) ++ [.num b] ++ (ws.map fun w => V.num w.2).reverse := by
  suffices h : ∃ s', Evals Demo.logPrims env (nestedWinds b ws) s (.ok (.num b)) s' ∧ s'.winds = s.winds ∧
      (s'.ext = s.ext ++ ws.map (fun w => V.num w.1) ++ [.num b] ++ (ws.map fun w => V.num w.2).reverse) ∧
      (∀ x, NoMacro s' x) by
    obtain ⟨s', h1, h2, h3, _⟩ := h
    exact ⟨s', h1, h2, h3⟩
  induction ws generalizing env s with
  | nil => exact ⟨_, log_emit, rfl, by simp, hm⟩
  | cons w ws ih =>
    obtain ⟨i, o⟩ := w
    obtain ⟨f, hf⟩ : ∃ f, s.frames[env]? = some f := ⟨_, List.getElem?_eq_getElem he⟩
    let s1 : St (List V) := { s with frames := s.frames ++ [⟨[], some env, f.modl⟩], ext := s.ext ++ [.num i] }
    let iv : V := .proc .nil (listOf [listOf [.func "emit" 1, .num i]]) env
    let ov : V := .proc .nil (listOf [listOf [.func "emit" 1, .num o]]) env
    have hf1 : (winding iv ov s1).frames[env]? = some f := by
      show (s.frames ++ _)[env]? = _
      rw [List.getElem?_append_left he]; exact hf
    have hm1 : ∀ x, NoMacro (winding iv ov s1) x := fun x => noMacro_push (s := s) (hm x) (by simp)
    let s2 : St (List V) := { winding iv ov s1 with frames := (winding iv ov s1).frames ++ [⟨[], some env, f.modl⟩] }
    have hm2 : ∀ x, NoMacro s2 x := fun x => noMacro_push (hm1 x) (by simp)
    obtain ⟨s3, h1, h2, h3, h4⟩ := ih (env := (winding iv ov s1).frames.length) (s := s2) hm2 (by simp [s2])
    have hx : Ext s2 s3 := run_ext (evals_iff.1 h1)
    have hf2 : s2.frames[env]? = some f := by
      show ((winding iv ov s1).frames ++ _)[env]? = _
      rw [List.getElem?_append_left (List.getElem?_eq_some_iff.1 hf1).1]; exact hf1
    obtain ⟨f3, hf3, hp3, hmd3, _⟩ := hx.frames env f hf2
    let s4 : St (List V) := { s3 with winds := s1.winds }
    refine ⟨{ s4 with frames := s4.frames ++ [⟨[], some env, f3.modl⟩], ext := s4.ext ++ [.num o] }, ?_, rfl, ?_, ?_⟩
    · refine (c63_dynamic_wind (hm _) (.cons (log_thunk (hm _)) (.cons (log_thunk (hm _)) (.cons (log_thunk (hm _)) .nil)))
        ⟨_, _, rfl⟩ ⟨_, _, rfl⟩ ⟨_, _, rfl⟩).2 ⟨.num i, s1, s3, .num o, log_apply_emit hf, ?_, log_apply_emit (s := s4) hf3⟩
      exact .closure (ps := []) (rest := Option.none) (by decide) rfl hf1 (.last h1)
    · show s3.ext ++ [.num o] = _
      rw [h3]
      show (s.ext ++ [.num i]) ++ _ ++ _ ++ _ ++ _ = _
      simp
    · intro x
      exact noMacro_push (s := s4) (h4 x) (by simp)

/-- Three nested winds. -/
example : ∃ s', Evals Demo.logPrims 0 (nestedWinds 0 [(1, 2), (3, 4), (5, 6)]) Demo.log0 (.ok (.num 0)) s' ∧
    s'.ext = [.num 1, .num 3, .num 5, .num 0, .num 6, .num 4, .num 2] :=
  Demo.evals_log 20 (by decide +kernel)

/-! ## C64 -/

theorem callGuard_ok {g v : V} {s s' : St σ} (hg : Thunk g) (h : Applies P g [] s (.ok v) s') :
    callGuard (run P) g s = some (.ok (), s') := by
  obtain ⟨b, e, rfl⟩ := hg
  simp only [callGuard, bind_apply, (thunk_iff 0 (by simp) (by simp)).2 h]
  rfl

theorem callIns_ok {ws : List Wind} {s s' : St σ} (hg : ∀ w ∈ ws, Thunk w.inG) (h : RunIns P ws s s') :
    callIns (run P) ws s = some (.ok (), s') := by
  induction h with
  | nil => rfl
  | cons h1 _ ih =>
    simp only [callIns, bind_apply, callGuard_ok (hg _ (by simp)) h1, modSt_apply]
    exact ih fun w hw => hg w (by simp [hw])

theorem callOuts_ok {ws : List Wind} {s s' : St σ} (hg : ∀ w ∈ ws, Thunk w.outG) (h : RunOuts P (ws.map Wind.outG) s s') :
    callOuts (run P) ws s = some (.ok (), s') := by
  induction ws generalizing s with
  | nil => cases h; rfl
  | cons w ws ih =>
    cases h with
    | cons h1 h2 =>
      simp only [callOuts, bind_apply, callGuard_ok (hg w (by simp)) h1]
      exact ih (fun w hw => hg w (by simp [hw])) h2

theorem commonPrefix_self (ws : List Wind) : commonPrefix ws ws = ws := by
  induction ws with
  | nil => rfl
  | cons w ws ih => simp [commonPrefix, ih]

/-- C64: invoking a continuation does what the specification says.  Partial: either no wind is left or entered, or there is no common wind and
at most one is left (`c64_order_counterexample`, `c64_common_counterexample`). -/
theorem c64_jump_partial {env : EnvId} {id : Nat} {x v : V} {ci : ContInfo} {left entered common : List Wind} {s0 s s' : St σ}
    (hx : Evals P env x s0 (.ok v) s) (hc : s.conts.find? (fun c => c.id = id) = some ci)
    (hg : ∀ w ∈ left ++ entered, Thunk w.inG ∧ Thunk w.outG)
    (hp : (left = [] ∧ entered = []) ∨ (common = [] ∧ left.length ≤ 1)) (h : JumpSpec P left entered common ci.winds s s')
    (hlive : id ∈ s'.live) : Evals P env (listOf [.cont id, x]) s0 (.stop (.esc id v)) s' := by
  rw [evals_step]
  show ((run P (.eval env x)) >>= fun v => dynthrow (run P) id v) s0 = _
  rw [bind_apply, evals_iff.1 hx]
  show dynthrow (run P) id v s = _
  obtain ⟨s1, ho, hi⟩ := h.guards
  have hsw : switchWinds (run P) ci.winds s = some (.ok (), s') := by
    unfold switchWinds
    rw [Ev.getSt_bind, bind_apply]
    rcases hp with ⟨rfl, rfl⟩ | ⟨rfl, hl⟩
    · have e1 : s.winds = common := by simpa using h.before
      have e2 : ci.winds = common := by simpa using h.after
      cases ho
      cases hi
      rw [e1, e2, commonPrefix_self]
      have : toUnwind common common = [] := by
        unfold toUnwind
        cases common with
        | nil => rfl
        | cons c cs => simp
      rw [this, List.drop_length]
      simp only [List.reverse_nil, callOuts, callIns, pure_apply, Ev.modSt_bind]
    · have e1 : s.winds = left := by simpa using h.before
      have e2 : ci.winds = entered := by simpa using h.after
      have hcp : commonPrefix left entered = [] := by
        cases left with
        | nil => rfl
        | cons a as =>
          cases entered with
          | nil => rfl
          | cons b bs => simp [commonPrefix, h.maximal a (by simp) b (by simp)]
      have hrev : left.reverse = left := by
        match left, hl with
        | [], _ => rfl
        | [a], _ => rfl
      have htu : toUnwind [] left = left := by
        match left, hl with
        | [], _ => rfl
        | [a], _ => rfl
      rw [e1, e2, hcp, htu, hrev, callOuts_ok (fun w hw => (hg w (by simp [hw])).2) ho]
      simp only [Ev.modSt_bind, List.length_nil, List.drop_zero]
      exact callIns_ok (fun w hw => (hg w (by simp at hw; simp [hw])).1) hi
  unfold dynthrow
  rw [Ev.getSt_bind]
  unfold contInfo
  rw [hc]
  simp only [bind_apply, hsw, getSt_apply, if_pos hlive]
  rfl

/-- Leaving one wind: `(call/cc (lambda (k) (dynamic-wind (lambda () (emit 1)) (lambda () (k 0)) (lambda () (emit 2)))))`. -/
example : ∃ s', Evals Demo.logPrims 0 (listOf [.sym "call/cc", listOf [.sym "lambda", listOf [.sym "k"],
      windExpr (Demo.thunk (Demo.emit 1)) (Demo.thunk (listOf [.sym "k", .num 0])) (Demo.thunk (Demo.emit 2))]])
    Demo.log0 (.ok (.num 0)) s' ∧ s'.ext = [.num 1, .num 2] :=
  Demo.evals_log 20 (by decide +kernel)

/-- The hypotheses of `c64_jump_partial`: one wind is left, none entered. -/
example : ∃ s', Evals Demo.logPrims 0 (listOf [.cont 0, .num 7])
    { Demo.log0 with
      live := [0], next := 2, conts := [⟨0, [], 0⟩],
      winds := [⟨1, .proc .nil (listOf [listOf [.func "emit" 1, .num 1]]) 0, .proc .nil (listOf [listOf [.func "emit" 1, .num 2]]) 0⟩] }
    (.stop (.esc 0 (.num 7))) s' ∧ s'.ext = [.num 2] := by
  refine ⟨_, c64_jump_partial (left := [⟨1, .proc .nil (listOf [listOf [.func "emit" 1, .num 1]]) 0,
    .proc .nil (listOf [listOf [.func "emit" 1, .num 2]]) 0⟩]) (entered := []) (common := []) ⟨1, rfl⟩ rfl
    (by intro w hw; simp at hw; subst hw; exact ⟨⟨_, _, rfl⟩, ⟨_, _, rfl⟩⟩) (.inr ⟨rfl, by simp⟩)
    ⟨rfl, rfl, by simp, by simp, _, .cons (log_apply_emit rfl) .nil, .nil⟩ (by simp [Demo.log0]), rfl⟩

/-- C64 fails: leaving two nested winds calls the out guard of the outer one first.
`(call/cc (lambda (k) (dynamic-wind (emit 1) (dynamic-wind (emit 2) (k 0) (emit 3)) (emit 4))))` records 1 2 4 3 instead of 1 2 3 4. -/
theorem c64_order_counterexample : ∃ s', Evals Demo.logPrims 0 (listOf [.sym "call/cc", listOf [.sym "lambda", listOf [.sym "k"],
      windExpr (Demo.thunk (Demo.emit 1))
        (Demo.thunk (windExpr (Demo.thunk (Demo.emit 2)) (Demo.thunk (listOf [.sym "k", .num 0])) (Demo.thunk (Demo.emit 3))))
        (Demo.thunk (Demo.emit 4))]])
    Demo.log0 (.ok (.num 0)) s' ∧ s'.ext = [.num 1, .num 2, .num 4, .num 3] :=
  Demo.evals_log 24 (by decide +kernel)

/-- C64 fails: a wind that stays active is left and entered again.
`(dynamic-wind (emit 1) (call/cc (lambda (k) (dynamic-wind (emit 2) (k 0) (emit 3)))) (emit 4))` records 1 2 4 3 1 4 instead of 1 2 3 4. -/
theorem c64_common_counterexample : ∃ s', Evals Demo.logPrims 0
      (windExpr (Demo.thunk (Demo.emit 1))
        (Demo.thunk (listOf [.sym "call/cc", listOf [.sym "lambda", listOf [.sym "k"],
          windExpr (Demo.thunk (Demo.emit 2)) (Demo.thunk (listOf [.sym "k", .num 0])) (Demo.thunk (Demo.emit 3))]]))
        (Demo.thunk (Demo.emit 4)))
    Demo.log0 (.ok (.num 0)) s' ∧ s'.ext = [.num 1, .num 2, .num 4, .num 3, .num 1, .num 4] :=
  Demo.evals_log 24 (by decide +kernel)

/-! ## C65 -/

/-- C65 fails for every program: an error (or any other exit) that leaves the body of a `dynamic-wind` leaves the form at once, in the state in which
it left the body: the out guard has not been called and the wind is still on the list of active winds. -/
theorem c65_out_skipped {env : EnvId} {ie te oe i t o a : V} {e : Stop} {s0 s s1 s2 : St σ} (hm : NoMacro s0 "dynamic-wind")
    (h : ArgsEval (Evals P) env [ie, te, oe] s0 (.ok [i, t, o]) s) (hi : Thunk i) (ht : Thunk t) (ho : Thunk o)
    (h1 : Applies P i [] s (.ok a) s1) (h2 : Applies P t [] (winding i o s1) (.stop e) s2) :
    Evals P env (windExpr ie te oe) s0 (.stop e) s2 := by
  obtain ⟨ib, ie', tb, te', ob, oe', rfl, rfl, rfl, hr⟩ := windExpr_run hm h hi ht ho
  rw [hr, bind_apply, applies_nil_applyProc rfl h1 env]
  simp only [Ev.getSt_bind, Ev.modSt_bind]
  rw [bind_apply, applies_nil_applyProc rfl h2 env]

/-- `(catch 'a (lambda () (dynamic-wind (emit 1) (throw 'a 0) (emit 2))) (lambda (k v) (emit 3)))` records 1 3 instead of 1 2 3, and the wind
is still active afterwards. -/
theorem c65_counterexample : ∃ s', Evals Demo.logPrims 0
    (listOf [.sym "catch", quoted (.sym "a"),
      Demo.thunk (windExpr (Demo.thunk (Demo.emit 1)) (Demo.thunk (listOf [.sym "throw", quoted (.sym "a"), .num 0])) (Demo.thunk (Demo.emit 2))),
      listOf [.sym "lambda", listOf [.sym "k", .sym "v"], Demo.emit 3]])
    Demo.log0 (.ok (.num 3)) s' ∧ s'.ext = [.num 1, .num 3] ∧ s'.winds.length = 1 :=
  Demo.evals_winds 14 (by decide +kernel)

/-- The out guard runs later instead, at the next jump to a continuation, wherever that is: evaluating the program above and then
`(call/cc (lambda (k) (k 0)))`, entered with the wind still active, is harmless, but a jump out of a fresh wind calls it again and again:
`(begin <above> (call/cc (lambda (k) (dynamic-wind (emit 4) (k 0) (emit 5)))))` records 1 3 4 2 5 1. -/
theorem c65_later_counterexample : ∃ s', Evals Demo.logPrims 0
    (listOf [.sym "begin",
      listOf [.sym "catch", quoted (.sym "a"),
        Demo.thunk (windExpr (Demo.thunk (Demo.emit 1)) (Demo.thunk (listOf [.sym "throw", quoted (.sym "a"), .num 0])) (Demo.thunk (Demo.emit 2))),
        listOf [.sym "lambda", listOf [.sym "k", .sym "v"], Demo.emit 3]],
      listOf [.sym "call/cc", listOf [.sym "lambda", listOf [.sym "k"],
        windExpr (Demo.thunk (Demo.emit 4)) (Demo.thunk (listOf [.sym "k", .num 0])) (Demo.thunk (Demo.emit 5))]]])
    Demo.log0 (.ok (.num 0)) s' ∧ s'.ext = [.num 1, .num 3, .num 4, .num 2, .num 5, .num 1] :=
  Demo.evals_log 24 (by decide +kernel)

end Pscm
