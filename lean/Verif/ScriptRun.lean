import Verif.ScriptText
import Verif.EvApiLemmas
/-! # Programs as texts: evaluation through the embedding interface -/
namespace Pscm.Scr
open Pscm.Rd (Bytes FloIO)
open Pscm.Ref (Fixed StRel World Store VRel Registered Implements Builtins evalForm Sim)
open Pscm.Ev hiding Name Form evalForm StRel
open Pscm.Ev.EM (modSt)
variable {σ : Type} {P : Prims σ} {A : Ref.Name → Int → Prop} {B : Builtins} {W W' : World} {st st' : Store} {s s' : St σ} {X0 : Fixed σ}

/-- Inside one more `catch`, of the activation `id`. -/
def inside (X0 : Fixed σ) (id : Nat) : Fixed σ where
  ext := X0.ext
  catches := ⟨id, .bool true⟩ :: X0.catches
  live := id :: X0.live
  target := some id
  ok := by intro k; simp [scan, tagMatches]

/-- The state after entering a `catch`. -/
def entered (s : St σ) : St σ := { s with next := s.next + 1, catches := ⟨s.next, .bool true⟩ :: s.catches, live := s.next :: s.live }

theorem enter_rel (h : StRel X0 A W st s) : StRel (inside X0 s.next) A W st (entered s) where
  wf := h.wf
  rib := h.rib
  inj := h.inj
  macros := h.macros
  modMacros := h.modMacros
  curRoot := h.curRoot
  catches := by
    obtain ⟨h1, h2⟩ := h.catches
    exact ⟨by simp [entered, inside, h1], by simp [entered, inside, h2]⟩
  ext := h.ext
  kept := h.kept
  top := h.top

/-- The state after the return of the `catch` of the activation `id`. -/
def left (id : Nat) (s : St σ) : St σ := { s with catches := s.catches.tail, live := (s.live.dropWhile (· ≠ id)).tail }

theorem leave_rel {id : Nat} (h : StRel (inside X0 id) A W st s) : StRel X0 A W st (left id s) where
  wf := h.wf
  rib := h.rib
  inj := h.inj
  macros := h.macros
  modMacros := h.modMacros
  curRoot := h.curRoot
  catches := by
    obtain ⟨h1, h2⟩ := h.catches
    refine ⟨?_, ?_⟩
    · show s.catches.tail = _
      rw [h1]; rfl
    · show (s.live.dropWhile (· ≠ id)).tail = _
      rw [h2]
      simp [inside]
  ext := h.ext
  kept := h.kept
  top := h.top

theorem apiCatch_unfold {body : EM σ ApiRes} (h : s.catches.length < 100) : apiCatch body s =
    EM.handle body (fun o =>
      match o with
      | .ok v => do
        popCatch
        leave s.next
        pure v
      | .stop (.err (some t) k a) =>
        if t = s.next then do
          cutTo s.next
          popCatch
          leave s.next
          pure (.failed k a)
        else EM.stop (.err (some t) k a)
      | .stop x => EM.stop x) (entered s) := by
  unfold apiCatch
  rw [getSt_bind, if_neg (by omega)]
  rfl

theorem api_ok {body : EM σ ApiRes} {r : ApiRes} {s2 : St σ} (hl : s.catches.length < 100) (hb : body (entered s) = some (.ok r, s2)) :
    apiCatch body s = some (.ok r, left s.next s2) := by
  rw [apiCatch_unfold hl]
  simp only [EM.handle, hb]
  rfl

theorem api_failed {body : EM σ ApiRes} {k : Pscm.Ev.Name} {a : V} {s2 : St σ} (hl : s.catches.length < 100)
    (hb : body (entered s) = some (.stop (.err (some s.next) k a), s2)) :
    ∃ s3, apiCatch body s = some (.ok (.failed k a), s3) ∧ (s2.live.dropWhile (· ≠ s.next) = s2.live → s3 = left s.next s2) := by
  rw [apiCatch_unfold hl]
  simp only [EM.handle, hb, if_true]
  refine ⟨_, rfl, fun h => ?_⟩
  show ({ s2 with catches := s2.catches.tail, live := ((s2.live.dropWhile (· ≠ s.next)).dropWhile (· ≠ s.next)).tail } : St σ) = _
  unfold left
  rw [h, h]

/-- `pscm_eval`, without a limit of depth. -/
noncomputable def evalRun (P : Prims σ) (ast : V) : EM σ ApiRes := apiCatch do
  let v ← run P (.eval 0 ast)
  pure (.value v)

theorem apiCatch_lub {x : Nat → EM σ ApiRes} {y : EM σ ApiRes} (h : EM.Lub x y) : EM.Lub (fun n => apiCatch (x n)) (apiCatch y) := by
  unfold apiCatch
  lub1 [h]

theorem pscmEval_lub (P : Prims σ) (ast : V) : EM.Lub (fun n => pscmEval P n ast) (evalRun P ast) := by
  have h := run_lub P
  refine apiCatch_lub ?_
  lub1 [h]

/-- A form evaluated by `pscm_eval`. -/
theorem sim_eval (hI : Implements (inside X0 s.next) P A B) (n : Nat) {f : Ref.Form} (hok : f.Ok A) (h : StRel X0 A W st s) (hc : X0.catches.length < 100) :
    match evalForm B n st f with
    | .unknown => True
    | .error o => ∃ k a s', evalRun P f.toV s = some (.ok (.failed k a), s') ∧ Ref.Left X0 A o s'
    | .val (v, st') => ∃ w s' W', evalRun P f.toV s = some (.ok (.value w), s') ∧ VRel A W' v w ∧ StRel X0 A W' st' s' := by
  have hs := Ref.sim_form hI n hok (enter_rel h)
  have hl : s.catches.length < 100 := by rw [h.catches.1]; exact hc
  cases he : evalForm B n st f with
  | unknown => trivial
  | error o =>
    rw [he] at hs
    obtain ⟨k, a, s', hm, hL⟩ := hs
    obtain ⟨s3, h3, h4⟩ := api_failed (body := run P (.eval 0 f.toV) >>= fun v => pure (.value v)) hl (by rw [Pscm.Ev.bind_apply, hm]; rfl)
    refine ⟨k, a, s3, h3, fun st1 ho => ?_⟩
    obtain ⟨W1, h1⟩ := hL st1 ho
    refine ⟨W1, ?_⟩
    rw [h4 (by rw [h1.catches.2]; simp [inside])]
    exact leave_rel h1
  | val q =>
    obtain ⟨v, st'⟩ := q
    rw [he] at hs
    obtain ⟨w, s', W', hm, _, hv, hr⟩ := hs
    refine ⟨w, _, W', api_ok (body := run P (.eval 0 f.toV) >>= fun v => pure (.value v)) hl (by rw [Pscm.Ev.bind_apply, hm]; rfl), hv, leave_rel hr⟩

/-! ## Scripts -/

/-- The loop of a script, without a limit of depth. -/
noncomputable def loopRun (P : Prims σ) (F : FloIO) (obj : V → Bytes) : List V → EM σ (List Bytes)
  | [] => pure []
  | x :: xs => do
    let r ← evalRun P x
    let ls ← loopRun P F obj xs
    pure (lineOf F obj r ++ ls)

theorem scriptLoop_lub (P : Prims σ) (F : FloIO) (obj : V → Bytes) (xs : List V) : EM.Lub (fun n => scriptLoop P F obj n xs) (loopRun P F obj xs) := by
  induction xs with
  | nil => exact EM.lub_const _
  | cons x xs ih =>
    have h := pscmEval_lub P x
    unfold scriptLoop loopRun
    lub1 [h, ih]

theorem apiCatch_le {x y : EM σ ApiRes} (h : x.Le y) : (apiCatch x).Le (apiCatch y) := by
  unfold apiCatch
  refine EM.bind_le (EM.le_refl _) fun s => ?_
  split
  · exact EM.le_refl _
  · exact EM.bind_le (EM.le_refl _) fun id => EM.handle_le h fun _ => EM.le_refl _

theorem pscmEval_le_run (P : Prims σ) (n : Nat) (x : V) : (pscmEval P n x).Le (evalRun P x) :=
  apiCatch_le (EM.bind_le (ev_le_run P n _) fun _ => EM.le_refl _)

theorem scriptLoop_le_run (P : Prims σ) (F : FloIO) (obj : V → Bytes) (n : Nat) (xs : List V) : (scriptLoop P F obj n xs).Le (loopRun P F obj xs) := by
  induction xs with
  | nil => exact EM.le_refl _
  | cons x xs ih =>
    unfold scriptLoop loopRun
    exact EM.bind_le (pscmEval_le_run P n x) fun _ => EM.bind_le ih fun _ => EM.le_refl _

/-- `pscm_eval_string`, without a limit of depth. -/
noncomputable def textRun (P : Prims σ) (t : ReadRes) : EM σ ApiRes := apiCatch do
  let r ← pscmParse t
  match r with
  | .value ast => evalRun P ast
  | r => pure r

theorem pscmEvalString_lub (P : Prims σ) (t : ReadRes) : EM.Lub (fun n => pscmEvalString P n t) (textRun P t) := by
  refine apiCatch_lub (EM.bind_lub (EM.lub_const _) fun r => ?_)
  cases r with
  | value ast => exact pscmEval_lub P ast
  | _ => exact EM.lub_const _

/-- `pscm_eval_string` on the bytes of a text, without a limit of depth. -/
noncomputable def evalTextRun (P : Prims σ) (F : FloIO) (t : Bytes) : EM σ ApiRes :=
  match readText F t with
  | none => EM.stop .unmod
  | some t => textRun P t

/-- The calls of a host program, without a limit of depth. -/
noncomputable def sessionRun (P : Prims σ) (F : FloIO) : List Bytes → EM σ (List ApiRes)
  | [] => pure []
  | t :: ts => do
    let r ← evalTextRun P F t
    let rs ← sessionRun P F ts
    pure (r :: rs)

theorem session_lub (P : Prims σ) (F : FloIO) (ts : List Bytes) : EM.Lub (fun n => session P F n ts) (sessionRun P F ts) := by
  induction ts with
  | nil => exact EM.lub_const _
  | cons t ts ih =>
    unfold session sessionRun
    refine EM.bind_lub ?_ fun r => EM.bind_lub ih fun rs => EM.lub_const _
    unfold evalText evalTextRun
    cases readText F t with
    | none => exact EM.lub_const _
    | some t => exact pscmEvalString_lub P t

theorem lub_det {α : Type} {x : Nat → EM σ α} {y : EM σ α} (h : EM.Lub x y) {s : St σ} {r q : Out α × St σ} (hy : y s = some r) {n : Nat} (hn : x n s = some q) : q = r := by
  obtain ⟨m, hm⟩ := h.lub s r hy
  have h1 := (h.mono n (max n m) (Nat.le_max_left n m)).le s q hn
  have h2 := (h.mono m (max n m) (Nat.le_max_right n m)).le s r hm
  rw [h1] at h2
  exact Option.some.inj h2

/-- A form evaluated by `pscm_eval_string`. -/
theorem sim_text (hI : ∀ X : Fixed σ, Implements X P A B) (n : Nat) {f : Ref.Form} (hok : f.Ok A) (h : StRel X0 A W st s) (hc : X0.catches.length < 98) :
    match evalForm B n st f with
    | .unknown => True
    | .error o => ∃ k a s', textRun P (.datum f.toV) s = some (.ok (.failed k a), s') ∧ Ref.Left X0 A o s'
    | .val (v, st') => ∃ w s' W', textRun P (.datum f.toV) s = some (.ok (.value w), s') ∧ VRel A W' v w ∧ StRel X0 A W' st' s' := by
  have hl : s.catches.length < 98 := by rw [h.catches.1]; exact hc
  have hp : pscmParse (.datum f.toV) (entered s) = some (.ok (.value f.toV), left (entered s).next (entered (entered s))) :=
    api_ok (body := parseText (.datum f.toV)) (by show s.catches.length + 1 < 100; omega) rfl
  have hr1 : StRel (inside X0 s.next) A W st (left (entered s).next (entered (entered s))) := leave_rel (enter_rel (enter_rel h))
  have hs := sim_eval (s := left (entered s).next (entered (entered s))) (hI _) n hok hr1 (by show X0.catches.length + 1 < 100; omega)
  have hbody : ∀ q, evalRun P f.toV (left (entered s).next (entered (entered s))) = some q →
      (pscmParse (.datum f.toV) >>= fun r => match r with | .value ast => evalRun P ast | r => pure r : EM σ ApiRes) (entered s) = some q := by
    intro q hq
    rw [Pscm.Ev.bind_apply, hp]
    exact hq
  cases he : evalForm B n st f with
  | unknown => trivial
  | error o =>
    rw [he] at hs
    obtain ⟨k, a, s', hm, hL⟩ := hs
    refine ⟨k, a, _, api_ok (by omega) (hbody _ hm), fun st1 ho => ?_⟩
    obtain ⟨W1, h1⟩ := hL st1 ho
    exact ⟨W1, leave_rel h1⟩
  | val q =>
    obtain ⟨v, st'⟩ := q
    rw [he] at hs
    obtain ⟨w, s', W', hm, hv, hr⟩ := hs
    exact ⟨w, _, W', api_ok (by omega) (hbody _ hm), hv, leave_rel hr⟩

end Pscm.Scr
