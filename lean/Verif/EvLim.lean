import Verif.EvMono
namespace Pscm.Ev
variable {σ α β : Type}
open EM (stop getSt modSt)

/-- `y` is the limit of the increasing sequence `x 0, x 1, ...`. -/
structure EM.Lub (x : Nat → EM σ α) (y : EM σ α) : Prop where
  mono : ∀ n m, n ≤ m → (x n).Le (x m)
  lub : ∀ s r, y s = some r → ∃ n, x n s = some r

theorem EM.lub_const (y : EM σ α) : EM.Lub (fun _ => y) y :=
  ⟨fun _ _ _ => EM.le_refl _, fun _ _ h => ⟨0, h⟩⟩

theorem EM.bind_lub {x : Nat → EM σ α} {y : EM σ α} {f : Nat → α → EM σ β} {g : α → EM σ β}
    (hx : EM.Lub x y) (hf : ∀ a, EM.Lub (fun n => f n a) (g a)) :
    EM.Lub (fun n => x n >>= f n) (y >>= g) := by
  refine ⟨fun n m h => EM.bind_le (hx.mono n m h) fun a => (hf a).mono n m h, ?_⟩
  intro s r h
  simp only [Bind.bind, EM.bind] at h ⊢
  cases hys : y s with
  | none => simp [hys] at h
  | some q =>
    obtain ⟨o, s'⟩ := q
    obtain ⟨n, hn⟩ := hx.lub s _ hys
    rw [hys] at h
    cases o with
    | stop e => exact ⟨n, by rw [hn]; exact h⟩
    | ok a =>
      obtain ⟨m, hm⟩ := (hf a).lub s' r h
      refine ⟨max n m, ?_⟩
      rw [(hx.mono n _ (Nat.le_max_left n m)).le s _ hn]
      exact ((hf a).mono m _ (Nat.le_max_right n m)).le s' r hm

theorem EM.handle_lub {x : Nat → EM σ α} {y : EM σ α} {f : Nat → Out α → EM σ β} {g : Out α → EM σ β}
    (hx : EM.Lub x y) (hf : ∀ a, EM.Lub (fun n => f n a) (g a)) :
    EM.Lub (fun n => EM.handle (x n) (f n)) (EM.handle y g) := by
  refine ⟨fun n m h => EM.handle_le (hx.mono n m h) fun a => (hf a).mono n m h, ?_⟩
  intro s r h
  simp only [EM.handle] at h ⊢
  cases hys : y s with
  | none => simp [hys] at h
  | some q =>
    obtain ⟨o, s'⟩ := q
    obtain ⟨n, hn⟩ := hx.lub s _ hys
    rw [hys] at h
    obtain ⟨m, hm⟩ := (hf o).lub s' r h
    refine ⟨max n m, ?_⟩
    rw [(hx.mono n _ (Nat.le_max_left n m)).le s _ hn]
    exact ((hf o).mono m _ (Nat.le_max_right n m)).le s' r hm

/-- `r` is the limit of `q 0, q 1, ...`. -/
def RecLub (q : Nat → Rec σ) (r : Rec σ) : Prop := ∀ t, EM.Lub (fun n => q n t) (r t)

syntax "lub1 " ("[" term,* "]")? : tactic
macro_rules
  | `(tactic| lub1 [$ts,*]) =>
    `(tactic| repeat' (first
        | assumption
        $[| apply $ts]*
        | exact EM.lub_const _
        | refine EM.bind_lub ?_ ?_
        | refine EM.handle_lub ?_ ?_
        | intro _
        | split))

section
variable {r1 : Nat → Rec σ} {r2 : Rec σ} (h : RecLub r1 r2)
include h

theorem evalArgs_lub (e : EnvId) (xs : List V) : EM.Lub (fun i => evalArgs (r1 i) e xs) (evalArgs r2 e xs) := by
  induction xs with
  | nil => exact EM.lub_const _
  | cons x xs ih => unfold evalArgs; lub1 [h, ih]

theorem evalSeq_lub (e : EnvId) (xs : List V) : EM.Lub (fun i => evalSeq (r1 i) e xs) (evalSeq r2 e xs) := by
  induction xs with
  | nil => exact EM.lub_const _
  | cons x xs ih => cases xs <;> unfold evalSeq <;> lub1 [h, ih]

theorem bindParams_lub (env pe : EnvId) (ps : List V) (r : Option Name) (xs : List V) :
    EM.Lub (fun i => bindParams (r1 i) env pe ps r xs) (bindParams r2 env pe ps r xs) := by
  fun_induction bindParams r2 env pe ps r xs <;> simp only [bindParams] <;> lub1 [h, evalArgs_lub h]
  all_goals (rename_i hh; first | exact EM.lub_const _ | skip)

theorem applyProc_lub (env : EnvId) (p b : V) (pe : EnvId) (xs : List V) :
    EM.Lub (fun i => applyProc (r1 i) env p b pe xs) (applyProc r2 env p b pe xs) := by
  unfold applyProc; lub1 [bindParams_lub h, evalSeq_lub h]

theorem applyProcV_lub (p b : V) (pe : EnvId) (xs : List V) :
    EM.Lub (fun i => applyProcV (r1 i) p b pe xs) (applyProcV r2 p b pe xs) := by
  unfold applyProcV; lub1 [evalSeq_lub h]

theorem force_lub (id : Nat) : EM.Lub (fun i => force (r1 i) id) (force r2 id) := by
  unfold force; lub1 [applyProc_lub h]

theorem runHandler_lub (id : Nat) (hp hb : V) (he : EnvId) (k : Name) (a : V) :
    EM.Lub (fun i => runHandler (r1 i) id hp hb he k a) (runHandler r2 id hp hb he k a) := by
  unfold runHandler; lub1 [applyProcV_lub h]

theorem runCatch_lub (tag tp tb : V) (te : EnvId) (hp hb : V) (he : EnvId) :
    EM.Lub (fun i => runCatch (r1 i) tag tp tb te hp hb he) (runCatch r2 tag tp tb te hp hb he) := by
  unfold runCatch; lub1 [applyProc_lub h, runHandler_lub h]

theorem catchPrim_lub (xs : List V) : EM.Lub (fun i => catchPrim (r1 i) xs) (catchPrim r2 xs) := by
  unfold catchPrim; lub1 [runCatch_lub h]

theorem callGuard_lub (g : V) : EM.Lub (fun i => callGuard (r1 i) g) (callGuard r2 g) := by
  unfold callGuard; lub1 [applyProc_lub h]

theorem callOuts_lub (ws : List Wind) : EM.Lub (fun i => callOuts (r1 i) ws) (callOuts r2 ws) := by
  induction ws with
  | nil => exact EM.lub_const _
  | cons w ws ih => unfold callOuts; lub1 [callGuard_lub h, ih]

theorem callIns_lub (ws : List Wind) : EM.Lub (fun i => callIns (r1 i) ws) (callIns r2 ws) := by
  induction ws with
  | nil => exact EM.lub_const _
  | cons w ws ih => unfold callIns; lub1 [callGuard_lub h, ih]

theorem switchWinds_lub (ws : List Wind) : EM.Lub (fun i => switchWinds (r1 i) ws) (switchWinds r2 ws) := by
  unfold switchWinds; lub1 [callOuts_lub h, callIns_lub h]

theorem dynthrow_lub (id : Nat) (v : V) : EM.Lub (fun i => dynthrow (r1 i) id v) (dynthrow r2 id v) := by
  unfold dynthrow; lub1 [switchWinds_lub h]

theorem expandCall_lub (p b : V) (me : EnvId) (xs : List V) :
    EM.Lub (fun i => expandCall (r1 i) p b me xs) (expandCall r2 p b me xs) := by
  unfold expandCall; lub1 [evalSeq_lub h]

theorem macroexpand1_lub (x : V) : EM.Lub (fun i => macroexpand1 (r1 i) x) (macroexpand1 r2 x) := by
  unfold macroexpand1; lub1 [expandCall_lub h]

theorem macroexpandLoop_lub (x : V) : EM.Lub (fun i => macroexpandLoop (r1 i) x) (macroexpandLoop r2 x) := by
  unfold macroexpandLoop; lub1 [h, macroexpand1_lub h]

theorem loadFile_lub (P : Prims σ) (e : EnvId) (f : String) : EM.Lub (fun i => loadFile P (r1 i) e f) (loadFile P r2 e f) := by
  unfold loadFile; lub1 [evalSeq_lub h]

theorem resolveModule_lub (P : Prims σ) (n : V) : EM.Lub (fun i => resolveModule P (r1 i) n) (resolveModule P r2 n) := by
  unfold resolveModule; lub1 [loadFile_lub h]

theorem useModules_lub (P : Prims σ) (m : Nat) (xs : List V) : EM.Lub (fun i => useModules P (r1 i) m xs) (useModules P r2 m xs) := by
  induction xs with
  | nil => exact EM.lub_const _
  | cons x xs ih => cases x <;> unfold useModules <;> lub1 [resolveModule_lub h, ih]

theorem runOpts_lub (P : Prims σ) (m : Nat) (os : List ModOpt) : EM.Lub (fun i => runOpts P (r1 i) m os) (runOpts P r2 m os) := by
  induction os with
  | nil => exact EM.lub_const _
  | cons o os ih => cases o <;> unfold runOpts <;> lub1 [resolveModule_lub h, ih]

theorem evalDefineModule_lub (P : Prims σ) (x : V) : EM.Lub (fun i => evalDefineModule P (r1 i) x) (evalDefineModule P r2 x) := by
  unfold evalDefineModule; lub1 [runOpts_lub h]

theorem modPrim_lub (P : Prims σ) (n : Name) (xs : List V) : EM.Lub (fun i => modPrim P (r1 i) n xs) (modPrim P r2 n xs) := by
  unfold modPrim; lub1 [resolveModule_lub h]

theorem runPrim_lub (t : PrimRes σ) : EM.Lub (fun i => runPrim (r1 i) t) (runPrim r2 t) := by
  induction t with
  | done o x => cases o <;> exact EM.lub_const _
  | eval e x k ih => unfold runPrim; lub1 [h, ih]

theorem extPrim_lub (P : Prims σ) (n : Name) (xs : List V) : EM.Lub (fun i => extPrim P (r1 i) n xs) (extPrim P r2 n xs) := by
  unfold extPrim; lub1 [runPrim_lub h]

theorem callPrim_lub (P : Prims σ) (n : Name) (xs : List V) : EM.Lub (fun i => callPrim P (r1 i) n xs) (callPrim P r2 n xs) := by
  unfold callPrim
  split
  · exact EM.lub_const _
  split
  · lub1 [force_lub h]
  split
  · exact catchPrim_lub h _
  split
  · exact EM.lub_const _
  split
  · lub1 [h]
  split
  · lub1 [loadFile_lub h]
  split
  · lub1 [macroexpand1_lub h]
  split
  · lub1 [h]
  split
  · exact modPrim_lub h ..
  split
  · exact EM.lub_const _
  exact extPrim_lub h ..

attribute [local irreducible] callPrim

theorem reducePrim_lub (P : Prims σ) (n : Name) (a : V) (xs : List V) :
    EM.Lub (fun i => reducePrim P (r1 i) n a xs) (reducePrim P r2 n a xs) := by
  induction xs generalizing a with
  | nil => exact EM.lub_const _
  | cons x xs ih => unfold reducePrim; lub1 [callPrim_lub h, ih]

theorem callFunc_lub (P : Prims σ) (n : Name) (a : Int) (xs : List V) :
    EM.Lub (fun i => callFunc P (r1 i) n a xs) (callFunc P r2 n a xs) := by
  unfold callFunc; lub1 [callPrim_lub h, reducePrim_lub h]

theorem evalDefine_lub (env : EnvId) (x : V) : EM.Lub (fun i => evalDefine (r1 i) env x) (evalDefine r2 env x) := by
  unfold evalDefine; lub1 [h]

theorem evalSet_lub (env : EnvId) (x : V) : EM.Lub (fun i => evalSet (r1 i) env x) (evalSet r2 env x) := by
  unfold evalSet; lub1 [h]

theorem evalDefineMacro_lub (env : EnvId) (x : V) : EM.Lub (fun i => evalDefineMacro (r1 i) env x) (evalDefineMacro r2 env x) := by
  unfold evalDefineMacro; lub1 [h]

theorem expandElems_lub (env : EnvId) (x : V) : EM.Lub (fun i => expandElems (r1 i) env x) (expandElems r2 env x) := by
  induction x <;> unfold expandElems <;> lub1 [h]

theorem expandMacros_lub (env : EnvId) (x : V) : EM.Lub (fun i => expandMacros (r1 i) env x) (expandMacros r2 env x) := by
  unfold expandMacros; lub1 [h, expandCall_lub h, expandElems_lub h]

theorem macroCall_lub (env : EnvId) (p b : V) (me : EnvId) (x : V) :
    EM.Lub (fun i => macroCall (r1 i) env p b me x) (macroCall r2 env p b me x) := by
  unfold macroCall; lub1 [h, expandCall_lub h]

theorem evalIf_lub (env : EnvId) (xs : List V) : EM.Lub (fun i => evalIf (r1 i) env xs) (evalIf r2 env xs) := by
  unfold evalIf; lub1 [h]

theorem evalAnd_lub (env : EnvId) (xs : List V) : EM.Lub (fun i => evalAnd (r1 i) env xs) (evalAnd r2 env xs) := by
  induction xs with
  | nil => exact EM.lub_const _
  | cons x xs ih => cases xs <;> unfold evalAnd <;> lub1 [h, ih]

theorem evalOr_lub (env : EnvId) (xs : List V) : EM.Lub (fun i => evalOr (r1 i) env xs) (evalOr r2 env xs) := by
  induction xs with
  | nil => exact EM.lub_const _
  | cons x xs ih => cases xs <;> unfold evalOr <;> lub1 [h, ih]

theorem condArrow_lub (env : EnvId) (p m : V) : EM.Lub (fun i => condArrow (r1 i) env p m) (condArrow r2 env p m) := by
  unfold condArrow; lub1 [h]

theorem evalCond_lub (env : EnvId) (xs : List V) : EM.Lub (fun i => evalCond (r1 i) env xs) (evalCond r2 env xs) := by
  induction xs with
  | nil => exact EM.lub_const _
  | cons x xs ih => cases x <;> unfold evalCond <;> lub1 [h, evalSeq_lub h, condArrow_lub h, ih]

theorem caseClauses_lub (env : EnvId) (k : V) (xs : List V) :
    EM.Lub (fun i => caseClauses (r1 i) env k xs) (caseClauses r2 env k xs) := by
  induction xs with
  | nil => exact EM.lub_const _
  | cons x xs ih => cases x <;> unfold caseClauses <;> lub1 [h, evalSeq_lub h, ih]

theorem evalCase_lub (env : EnvId) (xs : List V) : EM.Lub (fun i => evalCase (r1 i) env xs) (evalCase r2 env xs) := by
  unfold evalCase; lub1 [h, caseClauses_lub h]

theorem doInit_lub (env de : EnvId) (xs : List V) : EM.Lub (fun i => doInit (r1 i) env de xs) (doInit r2 env de xs) := by
  induction xs with
  | nil => exact EM.lub_const _
  | cons x xs ih =>
    cases x with
    | pair a d => cases a <;> unfold doInit <;> lub1 [h, ih]
    | _ => exact EM.lub_const _

theorem doSteps_lub (de : EnvId) (xs : List (Name × V)) : EM.Lub (fun i => doSteps (r1 i) de xs) (doSteps r2 de xs) := by
  induction xs with
  | nil => exact EM.lub_const _
  | cons x xs ih => unfold doSteps; lub1 [h, ih]

theorem doLoop_lub (de : EnvId) (t r b : V) (st : List (Name × V)) :
    EM.Lub (fun i => doLoop (r1 i) de t r b st) (doLoop r2 de t r b st) := by
  unfold doLoop; lub1 [h, doSteps_lub h, evalArgs_lub h, evalSeq_lub h]

theorem evalDo_lub (env : EnvId) (x : V) : EM.Lub (fun i => evalDo (r1 i) env x) (evalDo r2 env x) := by
  unfold evalDo; lub1 [h, doInit_lub h]

theorem applyQuoted_lub (P : Prims σ) (env : EnvId) (f : V) (row : List V) :
    EM.Lub (fun i => applyQuoted P (r1 i) env f row) (applyQuoted P r2 env f row) := by
  unfold applyQuoted; lub1 [applyProc_lub h, evalArgs_lub h, callFunc_lub h]

theorem mapRows_lub (P : Prims σ) (env : EnvId) (f : V) (rs : List (List V)) :
    EM.Lub (fun i => mapRows P (r1 i) env f rs) (mapRows P r2 env f rs) := by
  induction rs with
  | nil => exact EM.lub_const _
  | cons x xs ih => unfold mapRows; lub1 [applyQuoted_lub h, ih]

theorem evalLists_lub (env : EnvId) (xs : List V) : EM.Lub (fun i => evalLists (r1 i) env xs) (evalLists r2 env xs) := by
  induction xs with
  | nil => exact EM.lub_const _
  | cons x xs ih => unfold evalLists; lub1 [h, ih]

theorem evalMap_lub (P : Prims σ) (env : EnvId) (xs : List V) : EM.Lub (fun i => evalMap P (r1 i) env xs) (evalMap P r2 env xs) := by
  unfold evalMap; lub1 [h, evalLists_lub h, mapRows_lub h]

theorem forEachLoop_lub (env : EnvId) (f : V) (n : Nat) (cols : List (List V)) :
    EM.Lub (fun i => forEachLoop (r1 i) env f n cols) (forEachLoop r2 env f n cols) := by
  induction n generalizing cols with
  | zero => exact EM.lub_const _
  | succ n ih => unfold forEachLoop; lub1 [h, ih]

theorem forEachArgs_lub (env : EnvId) (k : Nat) (xs : List V) :
    EM.Lub (fun i => forEachArgs (r1 i) env k xs) (forEachArgs r2 env k xs) := by
  induction k generalizing xs with
  | zero => exact EM.lub_const _
  | succ n ih => cases xs <;> unfold forEachArgs <;> lub1 [h, ih]

theorem evalForEach_lub (env : EnvId) (xs : List V) : EM.Lub (fun i => evalForEach (r1 i) env xs) (evalForEach r2 env xs) := by
  unfold evalForEach; lub1 [h, forEachArgs_lub h, forEachLoop_lub h]

omit h in
theorem withCont_lub {k1 : Nat → V → EM σ V} {k2 : V → EM σ V} (hk : ∀ v, EM.Lub (fun i => k1 i v) (k2 v)) :
    EM.Lub (fun i => withCont (k1 i)) (withCont k2) := by
  unfold withCont; lub1 [hk]

theorem callCC_lub (P : Prims σ) (env : EnvId) (f : V) : EM.Lub (fun i => callCC P (r1 i) env f) (callCC P r2 env f) := by
  unfold callCC; lub1 [withCont_lub, applyProc_lub h, evalArgs_lub h, callFunc_lub h]

theorem applyTo_lub (P : Prims σ) (env : EnvId) (f : V) (xs : List V) :
    EM.Lub (fun i => applyTo P (r1 i) env f xs) (applyTo P r2 env f xs) := by
  unfold applyTo; lub1 [h, applyProc_lub h, evalArgs_lub h, callFunc_lub h, callCC_lub h]

theorem evalApply_lub (P : Prims σ) (env : EnvId) (xs : List V) :
    EM.Lub (fun i => evalApply P (r1 i) env xs) (evalApply P r2 env xs) := by
  unfold evalApply; lub1 [h, dynthrow_lub h, evalArgs_lub h, applyTo_lub h]

theorem evalCallWithValues_lub (P : Prims σ) (env : EnvId) (xs : List V) :
    EM.Lub (fun i => evalCallWithValues P (r1 i) env xs) (evalCallWithValues P r2 env xs) := by
  unfold evalCallWithValues; lub1 [h, applyProc_lub h, applyProcV_lub h, callFunc_lub h]

theorem evalDynamicWind_lub (env : EnvId) (xs : List V) :
    EM.Lub (fun i => evalDynamicWind (r1 i) env xs) (evalDynamicWind r2 env xs) := by
  unfold evalDynamicWind; lub1 [h, applyProc_lub h]

theorem quasi_lub (env : EnvId) (x : V) (d : Nat) : EM.Lub (fun i => quasi (r1 i) env x d) (quasi r2 env x d) := by
  fun_induction quasi r2 env x d <;> (try simp only [quasi, *, if_true, if_false]) <;> lub1 [h]
  all_goals (rename_i h1 h2 ih; conv => arg 1; intro i; rw [quasi.eq_def]
             simp only [if_neg h1, if_neg h2]; exact EM.bind_lub ih fun _ => EM.lub_const _)

theorem evalBegin_lub (env : EnvId) (xs : List V) : EM.Lub (fun i => evalBegin (r1 i) env xs) (evalBegin r2 env xs) := by
  unfold evalBegin; lub1 [evalSeq_lub h]

theorem evalCallCC_lub (env : EnvId) (xs : List V) : EM.Lub (fun i => evalCallCC (r1 i) env xs) (evalCallCC r2 env xs) := by
  unfold evalCallCC; lub1 [h, withCont_lub]

theorem evalForm_lub (P : Prims σ) (f : Form) (env : EnvId) (x : V) :
    EM.Lub (fun i => evalForm P (r1 i) f env x) (evalForm P r2 f env x) := by
  unfold evalForm
  lub1 [h, evalDefine_lub h, evalDefineMacro_lub h, evalCallCC_lub h, evalSet_lub h, quasi_lub h, evalIf_lub h, evalAnd_lub h,
    evalOr_lub h, evalCond_lub h, evalCase_lub h, evalBegin_lub h, evalForEach_lub h, evalDo_lub h, evalMap_lub h, evalApply_lub h,
    evalCallWithValues_lub h, evalDynamicWind_lub h, evalDefineModule_lub h, useModules_lub h]

theorem evalFuncCall_lub (P : Prims σ) (env : EnvId) (n : Name) (a : Int) (x : V) :
    EM.Lub (fun i => evalFuncCall P (r1 i) env n a x) (evalFuncCall P r2 env n a x) := by
  unfold evalFuncCall; lub1 [evalApply_lub h, evalMap_lub h, callCC_lub h, evalArgs_lub h, callFunc_lub h]

theorem evalPair_lub (P : Prims σ) (env : EnvId) (x d : V) : EM.Lub (fun i => evalPair P (r1 i) env x d) (evalPair P r2 env x d) := by
  unfold evalPair
  lub1 [h, macroCall_lub h, evalForm_lub h, dynthrow_lub h, applyProc_lub h, evalFuncCall_lub h]

theorem step_lub (P : Prims σ) (t : Task) : EM.Lub (fun i => step P (r1 i) t) (step P r2 t) := by
  unfold step; lub1 [evalPair_lub h, expandMacros_lub h, doLoop_lub h, macroexpandLoop_lub h]
end


open Classical in
/-- The evaluator without fuel: what `ev` ends with when it is given enough of it; `none` when the program runs forever. -/
noncomputable def run (P : Prims σ) (t : Task) : EM σ V := fun s =>
  if h : ∃ r, ∃ n, ev P n t s = some r then some h.choose else Option.none

theorem run_eq_some {P : Prims σ} {t : Task} {s : St σ} {r} :
    run P t s = some r ↔ ∃ n, ev P n t s = some r := by
  unfold run
  constructor
  · intro h
    split at h
    · rename_i hh
      have := hh.choose_spec
      simp only [Option.some.injEq] at h
      rw [h] at this
      exact this
    · cases h
  · rintro ⟨n, hn⟩
    have hh : ∃ r, ∃ n, ev P n t s = some r := ⟨r, n, hn⟩
    rw [dif_pos hh]
    obtain ⟨m, hm⟩ := hh.choose_spec
    exact ((ev_le P (Nat.le_max_left m n) t).le s _ hm).symm.trans ((ev_le P (Nat.le_max_right m n) t).le s _ hn)

theorem run_lub (P : Prims σ) : RecLub (ev P) (run P) := fun t =>
  ⟨fun _ _ h => ev_le P h t, fun _ _ h => run_eq_some.1 h⟩

theorem ev_le_run (P : Prims σ) (n : Nat) : RecLe (ev P n) (run P) := fun _ =>
  ⟨fun _ _ h => run_eq_some.2 ⟨n, h⟩⟩

theorem EM.le_antisymm {x y : EM σ α} (h : x.Le y) (k : y.Le x) : x = y := by
  funext s
  cases hx : x s with
  | some r => exact (h.le s r hx).symm
  | none =>
    cases hy : y s with
    | none => rfl
    | some r => rw [k.le s r hy] at hx; cases hx

/-- The evaluator satisfies its own defining equations, without fuel. -/
theorem run_eq (P : Prims σ) (t : Task) : run P t = step P (run P) t := by
  apply EM.le_antisymm
  · constructor
    intro s r h
    obtain ⟨n, hn⟩ := run_eq_some.1 h
    cases n with
    | zero => cases hn
    | succ n => exact (step_le (ev_le_run P n) P t).le s r hn
  · constructor
    intro s r h
    obtain ⟨n, hn⟩ := (step_lub (run_lub P) P t).lub s r h
    exact run_eq_some.2 ⟨n + 1, hn⟩

end Pscm.Ev
