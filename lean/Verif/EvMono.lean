import Verif.EvStep
/-!
# Results do not depend on the fuel

`x.Le y`: whatever `x` ends with, `y` ends with too.  Every function of the evaluator is monotone in its recursive
calls, so more fuel never changes a result.
-/
namespace Pscm.Ev
variable {σ α β : Type}
open EM (stop getSt modSt)

/-- `y` ends the way `x` does whenever `x` ends. -/
structure EM.Le (x y : EM σ α) : Prop where
  le : ∀ s r, x s = some r → y s = some r

theorem EM.le_refl (x : EM σ α) : x.Le x := ⟨fun _ _ h => h⟩

theorem EM.le_trans {x y z : EM σ α} (h : x.Le y) (k : y.Le z) : x.Le z :=
  ⟨fun s r e => k.le s r (h.le s r e)⟩

theorem EM.bind_le {x x' : EM σ α} {f f' : α → EM σ β} (hx : x.Le x') (hf : ∀ a, (f a).Le (f' a)) :
    (x >>= f).Le (x' >>= f') := by
  constructor
  intro s r h
  simp only [Bind.bind, EM.bind] at h ⊢
  cases hxs : x s with
  | none => simp [hxs] at h
  | some q =>
    obtain ⟨o, s'⟩ := q
    rw [hx.le s _ hxs]
    rw [hxs] at h
    cases o with
    | ok a => exact (hf a).le s' r h
    | stop e => exact h

theorem EM.handle_le {x x' : EM σ α} {f f' : Out α → EM σ β} (hx : x.Le x') (hf : ∀ a, (f a).Le (f' a)) :
    (EM.handle x f).Le (EM.handle x' f') := by
  constructor
  intro s r h
  simp only [EM.handle] at h ⊢
  cases hxs : x s with
  | none => simp [hxs] at h
  | some q =>
    obtain ⟨o, s'⟩ := q
    rw [hx.le s _ hxs]
    rw [hxs] at h
    exact (hf o).le s' r h

theorem EM.diverge_le (y : EM σ α) : (EM.diverge : EM σ α).Le y := ⟨fun _ _ h => by cases h⟩

/-- `r2` ends every task the way `r1` does. -/
def RecLe (r1 r2 : Rec σ) : Prop := ∀ t, (r1 t).Le (r2 t)

syntax "mono1 " ("[" term,* "]")? : tactic
macro_rules
  | `(tactic| mono1 [$ts,*]) =>
    `(tactic| repeat' (first
        | assumption
        $[| apply $ts]*
        | exact EM.le_refl _
        | refine EM.bind_le ?_ ?_
        | refine EM.handle_le ?_ ?_
        | intro _
        | split))

section
variable {r1 r2 : Rec σ} (h : RecLe r1 r2)
include h

theorem evalArgs_le (e : EnvId) (xs : List V) : (evalArgs r1 e xs).Le (evalArgs r2 e xs) := by
  induction xs with
  | nil => exact EM.le_refl _
  | cons x xs ih => unfold evalArgs; mono1 [h, ih]

theorem evalSeq_le (e : EnvId) (xs : List V) : (evalSeq r1 e xs).Le (evalSeq r2 e xs) := by
  induction xs with
  | nil => exact EM.le_refl _
  | cons x xs ih => cases xs <;> unfold evalSeq <;> mono1 [h, ih]

theorem bindParams_le (env pe : EnvId) (ps : List V) (r : Option Name) (xs : List V) :
    (bindParams r1 env pe ps r xs).Le (bindParams r2 env pe ps r xs) := by
  fun_induction bindParams r1 env pe ps r xs <;> simp only [bindParams] <;> mono1 [h, evalArgs_le h]
  all_goals (rename_i hh; first | exact EM.le_refl _ | skip)

theorem applyProc_le (env : EnvId) (p b : V) (pe : EnvId) (xs : List V) :
    (applyProc r1 env p b pe xs).Le (applyProc r2 env p b pe xs) := by
  unfold applyProc; mono1 [bindParams_le h, evalSeq_le h]

theorem applyProcV_le (p b : V) (pe : EnvId) (xs : List V) :
    (applyProcV r1 p b pe xs).Le (applyProcV r2 p b pe xs) := by
  unfold applyProcV; mono1 [evalSeq_le h]

theorem force_le (id : Nat) : (force r1 id).Le (force r2 id) := by
  unfold force; mono1 [applyProc_le h]

theorem runHandler_le (id : Nat) (hp hb : V) (he : EnvId) (k : Name) (a : V) :
    (runHandler r1 id hp hb he k a).Le (runHandler r2 id hp hb he k a) := by
  unfold runHandler; mono1 [applyProcV_le h]

theorem runCatch_le (tag tp tb : V) (te : EnvId) (hp hb : V) (he : EnvId) :
    (runCatch r1 tag tp tb te hp hb he).Le (runCatch r2 tag tp tb te hp hb he) := by
  unfold runCatch; mono1 [applyProc_le h, runHandler_le h]

theorem catchPrim_le (xs : List V) : (catchPrim r1 xs).Le (catchPrim r2 xs) := by
  unfold catchPrim; mono1 [runCatch_le h]

theorem callGuard_le (g : V) : (callGuard r1 g).Le (callGuard r2 g) := by
  unfold callGuard; mono1 [applyProc_le h]

theorem callOuts_le (ws : List Wind) : (callOuts r1 ws).Le (callOuts r2 ws) := by
  induction ws with
  | nil => exact EM.le_refl _
  | cons w ws ih => unfold callOuts; mono1 [callGuard_le h, ih]

theorem callIns_le (ws : List Wind) : (callIns r1 ws).Le (callIns r2 ws) := by
  induction ws with
  | nil => exact EM.le_refl _
  | cons w ws ih => unfold callIns; mono1 [callGuard_le h, ih]

theorem switchWinds_le (ws : List Wind) : (switchWinds r1 ws).Le (switchWinds r2 ws) := by
  unfold switchWinds; mono1 [callOuts_le h, callIns_le h]

theorem dynthrow_le (id : Nat) (v : V) : (dynthrow r1 id v).Le (dynthrow r2 id v) := by
  unfold dynthrow; mono1 [switchWinds_le h]

theorem expandCall_le (p b : V) (me : EnvId) (xs : List V) :
    (expandCall r1 p b me xs).Le (expandCall r2 p b me xs) := by
  unfold expandCall; mono1 [evalSeq_le h]

theorem macroexpand1_le (x : V) : (macroexpand1 r1 x).Le (macroexpand1 r2 x) := by
  unfold macroexpand1; mono1 [expandCall_le h]

theorem macroexpandLoop_le (x : V) : (macroexpandLoop r1 x).Le (macroexpandLoop r2 x) := by
  unfold macroexpandLoop; mono1 [h, macroexpand1_le h]

theorem loadFile_le (P : Prims σ) (e : EnvId) (f : String) : (loadFile P r1 e f).Le (loadFile P r2 e f) := by
  unfold loadFile; mono1 [evalSeq_le h]

theorem resolveModule_le (P : Prims σ) (n : V) : (resolveModule P r1 n).Le (resolveModule P r2 n) := by
  unfold resolveModule; mono1 [loadFile_le h]

theorem useModules_le (P : Prims σ) (m : Nat) (xs : List V) : (useModules P r1 m xs).Le (useModules P r2 m xs) := by
  induction xs with
  | nil => exact EM.le_refl _
  | cons x xs ih => cases x <;> unfold useModules <;> mono1 [resolveModule_le h, ih]

theorem runOpts_le (P : Prims σ) (m : Nat) (os : List ModOpt) : (runOpts P r1 m os).Le (runOpts P r2 m os) := by
  induction os with
  | nil => exact EM.le_refl _
  | cons o os ih => cases o <;> unfold runOpts <;> mono1 [resolveModule_le h, ih]

theorem evalDefineModule_le (P : Prims σ) (x : V) : (evalDefineModule P r1 x).Le (evalDefineModule P r2 x) := by
  unfold evalDefineModule; mono1 [runOpts_le h]

theorem modPrim_le (P : Prims σ) (n : Name) (xs : List V) : (modPrim P r1 n xs).Le (modPrim P r2 n xs) := by
  unfold modPrim; mono1 [resolveModule_le h]

theorem runPrim_le (t : PrimRes σ) : (runPrim r1 t).Le (runPrim r2 t) := by
  induction t with
  | done o x => cases o <;> exact EM.le_refl _
  | eval e x k ih => unfold runPrim; mono1 [h, ih]

theorem extPrim_le (P : Prims σ) (n : Name) (xs : List V) : (extPrim P r1 n xs).Le (extPrim P r2 n xs) := by
  unfold extPrim; mono1 [runPrim_le h]

theorem callPrim_le (P : Prims σ) (n : Name) (xs : List V) : (callPrim P r1 n xs).Le (callPrim P r2 n xs) := by
  unfold callPrim
  split
  · exact EM.le_refl _
  split
  · mono1 [force_le h]
  split
  · exact catchPrim_le h _
  split
  · exact EM.le_refl _
  split
  · mono1 [h]
  split
  · mono1 [loadFile_le h]
  split
  · mono1 [macroexpand1_le h]
  split
  · mono1 [h]
  split
  · exact modPrim_le h ..
  split
  · exact EM.le_refl _
  exact extPrim_le h ..

attribute [local irreducible] callPrim

theorem reducePrim_le (P : Prims σ) (n : Name) (a : V) (xs : List V) :
    (reducePrim P r1 n a xs).Le (reducePrim P r2 n a xs) := by
  induction xs generalizing a with
  | nil => exact EM.le_refl _
  | cons x xs ih => unfold reducePrim; mono1 [callPrim_le h, ih]

theorem callFunc_le (P : Prims σ) (n : Name) (a : Int) (xs : List V) :
    (callFunc P r1 n a xs).Le (callFunc P r2 n a xs) := by
  unfold callFunc; mono1 [callPrim_le h, reducePrim_le h]

theorem evalDefine_le (env : EnvId) (x : V) : (evalDefine r1 env x).Le (evalDefine r2 env x) := by
  unfold evalDefine; mono1 [h]

theorem evalSet_le (env : EnvId) (x : V) : (evalSet r1 env x).Le (evalSet r2 env x) := by
  unfold evalSet; mono1 [h]

theorem evalDefineMacro_le (env : EnvId) (x : V) : (evalDefineMacro r1 env x).Le (evalDefineMacro r2 env x) := by
  unfold evalDefineMacro; mono1 [h]

theorem expandElems_le (env : EnvId) (x : V) : (expandElems r1 env x).Le (expandElems r2 env x) := by
  induction x <;> unfold expandElems <;> mono1 [h]

theorem expandMacros_le (env : EnvId) (x : V) : (expandMacros r1 env x).Le (expandMacros r2 env x) := by
  unfold expandMacros; mono1 [h, expandCall_le h, expandElems_le h]

theorem macroCall_le (env : EnvId) (p b : V) (me : EnvId) (x : V) :
    (macroCall r1 env p b me x).Le (macroCall r2 env p b me x) := by
  unfold macroCall; mono1 [h, expandCall_le h]

theorem evalIf_le (env : EnvId) (xs : List V) : (evalIf r1 env xs).Le (evalIf r2 env xs) := by
  unfold evalIf; mono1 [h]

theorem evalAnd_le (env : EnvId) (xs : List V) : (evalAnd r1 env xs).Le (evalAnd r2 env xs) := by
  induction xs with
  | nil => exact EM.le_refl _
  | cons x xs ih => cases xs <;> unfold evalAnd <;> mono1 [h, ih]

theorem evalOr_le (env : EnvId) (xs : List V) : (evalOr r1 env xs).Le (evalOr r2 env xs) := by
  induction xs with
  | nil => exact EM.le_refl _
  | cons x xs ih => cases xs <;> unfold evalOr <;> mono1 [h, ih]

theorem condArrow_le (env : EnvId) (p m : V) : (condArrow r1 env p m).Le (condArrow r2 env p m) := by
  unfold condArrow; mono1 [h]

theorem evalCond_le (env : EnvId) (xs : List V) : (evalCond r1 env xs).Le (evalCond r2 env xs) := by
  induction xs with
  | nil => exact EM.le_refl _
  | cons x xs ih => cases x <;> unfold evalCond <;> mono1 [h, evalSeq_le h, condArrow_le h, ih]

theorem caseClauses_le (env : EnvId) (k : V) (xs : List V) :
    (caseClauses r1 env k xs).Le (caseClauses r2 env k xs) := by
  induction xs with
  | nil => exact EM.le_refl _
  | cons x xs ih => cases x <;> unfold caseClauses <;> mono1 [h, evalSeq_le h, ih]

theorem evalCase_le (env : EnvId) (xs : List V) : (evalCase r1 env xs).Le (evalCase r2 env xs) := by
  unfold evalCase; mono1 [h, caseClauses_le h]

theorem doInit_le (env de : EnvId) (xs : List V) : (doInit r1 env de xs).Le (doInit r2 env de xs) := by
  induction xs with
  | nil => exact EM.le_refl _
  | cons x xs ih =>
    cases x with
    | pair a d => cases a <;> unfold doInit <;> mono1 [h, ih]
    | _ => exact EM.le_refl _

theorem doSteps_le (de : EnvId) (xs : List (Name × V)) : (doSteps r1 de xs).Le (doSteps r2 de xs) := by
  induction xs with
  | nil => exact EM.le_refl _
  | cons x xs ih => unfold doSteps; mono1 [h, ih]

theorem doLoop_le (de : EnvId) (t r b : V) (st : List (Name × V)) :
    (doLoop r1 de t r b st).Le (doLoop r2 de t r b st) := by
  unfold doLoop; mono1 [h, doSteps_le h, evalArgs_le h, evalSeq_le h]

theorem evalDo_le (env : EnvId) (x : V) : (evalDo r1 env x).Le (evalDo r2 env x) := by
  unfold evalDo; mono1 [h, doInit_le h]

theorem applyQuoted_le (P : Prims σ) (env : EnvId) (f : V) (row : List V) :
    (applyQuoted P r1 env f row).Le (applyQuoted P r2 env f row) := by
  unfold applyQuoted; mono1 [applyProc_le h, evalArgs_le h, callFunc_le h]

theorem mapRows_le (P : Prims σ) (env : EnvId) (f : V) (rs : List (List V)) :
    (mapRows P r1 env f rs).Le (mapRows P r2 env f rs) := by
  induction rs with
  | nil => exact EM.le_refl _
  | cons x xs ih => unfold mapRows; mono1 [applyQuoted_le h, ih]

theorem evalLists_le (env : EnvId) (xs : List V) : (evalLists r1 env xs).Le (evalLists r2 env xs) := by
  induction xs with
  | nil => exact EM.le_refl _
  | cons x xs ih => unfold evalLists; mono1 [h, ih]

theorem evalMap_le (P : Prims σ) (env : EnvId) (xs : List V) : (evalMap P r1 env xs).Le (evalMap P r2 env xs) := by
  unfold evalMap; mono1 [h, evalLists_le h, mapRows_le h]

theorem forEachLoop_le (env : EnvId) (f : V) (n : Nat) (cols : List (List V)) :
    (forEachLoop r1 env f n cols).Le (forEachLoop r2 env f n cols) := by
  induction n generalizing cols with
  | zero => exact EM.le_refl _
  | succ n ih => unfold forEachLoop; mono1 [h, ih]

theorem forEachArgs_le (env : EnvId) (k : Nat) (xs : List V) :
    (forEachArgs r1 env k xs).Le (forEachArgs r2 env k xs) := by
  induction k generalizing xs with
  | zero => exact EM.le_refl _
  | succ n ih => cases xs <;> unfold forEachArgs <;> mono1 [h, ih]

theorem evalForEach_le (env : EnvId) (xs : List V) : (evalForEach r1 env xs).Le (evalForEach r2 env xs) := by
  unfold evalForEach; mono1 [h, forEachArgs_le h, forEachLoop_le h]

omit h in
theorem withCont_le {k1 k2 : V → EM σ V} (hk : ∀ v, (k1 v).Le (k2 v)) : (withCont k1).Le (withCont k2) := by
  unfold withCont; mono1 [hk]

theorem callCC_le (P : Prims σ) (env : EnvId) (f : V) : (callCC P r1 env f).Le (callCC P r2 env f) := by
  unfold callCC; mono1 [withCont_le, applyProc_le h, evalArgs_le h, callFunc_le h]

theorem applyTo_le (P : Prims σ) (env : EnvId) (f : V) (xs : List V) :
    (applyTo P r1 env f xs).Le (applyTo P r2 env f xs) := by
  unfold applyTo; mono1 [h, applyProc_le h, evalArgs_le h, callFunc_le h, callCC_le h]

theorem evalApply_le (P : Prims σ) (env : EnvId) (xs : List V) :
    (evalApply P r1 env xs).Le (evalApply P r2 env xs) := by
  unfold evalApply; mono1 [h, dynthrow_le h, evalArgs_le h, applyTo_le h]

theorem evalCallWithValues_le (P : Prims σ) (env : EnvId) (xs : List V) :
    (evalCallWithValues P r1 env xs).Le (evalCallWithValues P r2 env xs) := by
  unfold evalCallWithValues; mono1 [h, applyProc_le h, applyProcV_le h, callFunc_le h]

theorem evalDynamicWind_le (env : EnvId) (xs : List V) :
    (evalDynamicWind r1 env xs).Le (evalDynamicWind r2 env xs) := by
  unfold evalDynamicWind; mono1 [h, applyProc_le h]

theorem quasi_le (env : EnvId) (x : V) (d : Nat) : (quasi r1 env x d).Le (quasi r2 env x d) := by
  fun_induction quasi r1 env x d <;> (try simp only [quasi, *, if_true, if_false]) <;> mono1 [h]
  all_goals (rename_i h1 h2 ih; rw [quasi.eq_def r2]; simp only [if_neg h1, if_neg h2]; mono1 [h])

theorem evalBegin_le (env : EnvId) (xs : List V) : (evalBegin r1 env xs).Le (evalBegin r2 env xs) := by
  unfold evalBegin; mono1 [evalSeq_le h]

theorem evalCallCC_le (env : EnvId) (xs : List V) : (evalCallCC r1 env xs).Le (evalCallCC r2 env xs) := by
  unfold evalCallCC; mono1 [h, withCont_le]

theorem evalForm_le (P : Prims σ) (f : Form) (env : EnvId) (x : V) :
    (evalForm P r1 f env x).Le (evalForm P r2 f env x) := by
  unfold evalForm
  mono1 [h, evalDefine_le h, evalDefineMacro_le h, evalCallCC_le h, evalSet_le h, quasi_le h, evalIf_le h, evalAnd_le h,
    evalOr_le h, evalCond_le h, evalCase_le h, evalBegin_le h, evalForEach_le h, evalDo_le h, evalMap_le h, evalApply_le h,
    evalCallWithValues_le h, evalDynamicWind_le h, evalDefineModule_le h, useModules_le h]

theorem evalFuncCall_le (P : Prims σ) (env : EnvId) (n : Name) (a : Int) (x : V) :
    (evalFuncCall P r1 env n a x).Le (evalFuncCall P r2 env n a x) := by
  unfold evalFuncCall; mono1 [evalApply_le h, evalMap_le h, callCC_le h, evalArgs_le h, callFunc_le h]

theorem evalPair_le (P : Prims σ) (env : EnvId) (x d : V) : (evalPair P r1 env x d).Le (evalPair P r2 env x d) := by
  unfold evalPair
  mono1 [h, macroCall_le h, evalForm_le h, dynthrow_le h, applyProc_le h, evalFuncCall_le h]

theorem step_le (P : Prims σ) (t : Task) : (step P r1 t).Le (step P r2 t) := by
  unfold step; mono1 [evalPair_le h, expandMacros_le h, doLoop_le h, macroexpandLoop_le h]
end

theorem ev_succ_le (P : Prims σ) (n : Nat) (t : Task) : (ev P n t).Le (ev P (n + 1) t) := by
  induction n generalizing t with
  | zero => exact EM.diverge_le _
  | succ n ih => exact step_le ih P t

theorem ev_le (P : Prims σ) {n m : Nat} (h : n ≤ m) (t : Task) : (ev P n t).Le (ev P m t) := by
  induction h with
  | refl => exact EM.le_refl _
  | step _ ih => exact EM.le_trans ih (ev_succ_le P _ t)

end Pscm.Ev
