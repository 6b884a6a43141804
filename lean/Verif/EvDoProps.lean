import Verif.EvNamedLet
/-!
# C52: do loops
-/
namespace Pscm
open Ev
variable {σ : Type} {Q : σ → Prop} {P : Prims σ}

/-! ## Specification -/

/-- A loop variable: name, initial expression, optional step expression; as text `(x init)` or `(x init step)`. -/
structure DoVar where
  name : Name
  init : V
  step : Option V

def DoVar.toV (b : DoVar) : V := listOf (.sym b.name :: b.init :: b.step.toList)

/-- The variables that have a step expression. -/
def stepVars (vars : List DoVar) : List (Name × V) := vars.filterMap fun b => b.step.map fun e => (b.name, e)

/-- Assign variables of the frame `de`, leaving everything else alone. -/
def assignVars (s : St σ) (de : EnvId) (xs : List (Name × V)) : St σ :=
  { s with frames := s.frames.modify de fun f => { f with entries := xs.foldl (fun es b => setEntry b.1 b.2 es) f.entries } }

/-- The loop in its environment: while the test is `#f`, evaluate the body, then *all* steps with the old values of the variables, then
assign; when it is `#t`, evaluate the result expressions.  (Tests that are neither are not covered: see `c52_nonboolean`.) -/
inductive DoLoop (E : ERel σ) (de : EnvId) (test : V) (res body : List V) (steps : List (Name × V)) : St σ → Out V → St σ → Prop
  | done {s s1 o s'} : E de test s (.ok (.bool true)) s1 → res ≠ [] → SeqEval E de res s1 o s' → DoLoop E de test res body steps s o s'
  | doneEmpty {s s1} : E de test s (.ok (.bool true)) s1 → res = [] → DoLoop E de test res body steps s (.ok .none) s1
  | iter {s s1 us s2 ws s3 o s'} : E de test s (.ok (.bool false)) s1 → ArgsEval E de body s1 (.ok us) s2 →
      ArgsEval E de (steps.map Prod.snd) s2 (.ok ws) s3 →
      DoLoop E de test res body steps (assignVars s3 de ((steps.map Prod.fst).zip ws)) o s' → DoLoop E de test res body steps s o s'
  | testStop {s e s'} : E de test s (.stop e) s' → DoLoop E de test res body steps s (.stop e) s'
  | bodyStop {s s1 e s'} : E de test s (.ok (.bool false)) s1 → ArgsEval E de body s1 (.stop e) s' →
      DoLoop E de test res body steps s (.stop e) s'
  | stepStop {s s1 us s2 e s'} : E de test s (.ok (.bool false)) s1 → ArgsEval E de body s1 (.ok us) s2 →
      ArgsEval E de (steps.map Prod.snd) s2 (.stop e) s' → DoLoop E de test res body steps s (.stop e) s'

/-- `(do ((x init step) ...) (test res ...) body ...)` -/
abbrev doExpr (vars : List DoVar) (test : V) (res body : List V) : V :=
  listOf (.sym "do" :: listOf (vars.map DoVar.toV) :: .pair test (listOf res) :: body)

/-! ## Lemmas -/

theorem evalArgs_ext {env : EnvId} {xs : List V} {s s1 : St σ} {o : Out (List V)} (h : evalArgs (run P) env xs s = some (o, s1)) :
    Ext s s1 := by
  induction xs generalizing s o with
  | nil => cases h; exact Ext.of_eq rfl rfl
  | cons x xs ih =>
    simp only [evalArgs, bind_eq_some] at h
    rcases h with ⟨v, s2, h1, h⟩ | ⟨e', h1, rfl⟩
    · rcases h with ⟨vs, s3, h2, h⟩ | ⟨e', h2, rfl⟩
      · cases h; exact (extRel σ).trans _ _ _ (run_ext h1) (ih h2)
      · exact (extRel σ).trans _ _ _ (run_ext h1) (ih h2)
    · exact run_ext h1

theorem binds_ext {s s1 : St σ} (h : Ext s s1) {x e i v} (hb : Binds s.frames x e i v) : ∃ j w, Binds s1.frames x e j w := by
  induction hb with
  | here hf hl =>
    obtain ⟨f', hf', _, _, hh⟩ := h.frames _ _ hf
    obtain ⟨w, hw⟩ := hasEntry_iff.1 (hh x (hasEntry_iff.2 ⟨_, hl⟩))
    exact ⟨_, w, .here hf' hw⟩
  | up hf hl hp _ ih =>
    obtain ⟨f', hf', hpar, _, _⟩ := h.frames _ _ hf
    cases hk : f'.entries.lookup x with
    | some w => exact ⟨_, w, .here hf' hk⟩
    | none =>
      obtain ⟨j, w, hj⟩ := ih
      exact ⟨j, w, .up hf' hk (hpar.trans hp) hj⟩

theorem unbound_ext {s s1 : St σ} (h : Ext s s1) {x e} (hu : Unbound s1.frames x e) : Unbound s.frames x e := fun i v hb => by
  obtain ⟨j, w, hj⟩ := binds_ext h hb
  exact hu j w hj

theorem findFrame_unbound {fr : List Frame} {x e} (h : Unbound fr x e) (n : Nat) : findFrame fr x n e = Option.none := by
  cases hf : findFrame fr x n e with
  | none => rfl
  | some i =>
    obtain ⟨v, hv⟩ := findFrame_sound hf
    exact absurd hv (h i v)

/-- Binding a variable that no enclosing frame has. -/
theorem bindDeep_fresh {n env : Nat} {s : St σ} {f : Frame} {x : Name} {v : V} {es : List (Name × V)} (hc : CleanSt Q (others n) s)
    (he : env ≠ n) (hf : s.frames[n]? = some f) (hp : f.parent = some env) (hu : Unbound s.frames x env) (hx : x ∉ es.map Prod.fst) :
    (bindDeep n x v : EM σ Unit) (repl n es s) = some (.ok (), repl n ((x, v) :: es) s) := by
  have hid : Hid (others n) n := fun h => h rfl
  have hnone : findFrame (repl n es s).frames x (n + 1) n = Option.none := by
    have hfr : (repl n es s).frames[n]? = some { f with entries := es } := by
      simp [repl, getElem?_updFrame, hf]
    have hh : hasEntry x es = false := by
      cases h : hasEntry x es with
      | false => rfl
      | true =>
        obtain ⟨w, hw⟩ := hasEntry_iff.1 h
        rw [lookup_eq_findEntry] at hw
        exact absurd (List.mem_map.2 ⟨_, findEntry_mem hw, rfl⟩) hx
    simp only [findFrame, hfr, hh, hp]
    rw [if_neg (by decide)]
    rw [repl_findFrame hc hid n env he]
    exact findFrame_unbound hu n
  unfold bindDeep
  simp only [modSt_apply, insertDeep, hnone]
  congr 3
  simp only [repl, updFrame_updFrame]
  rfl

theorem doVar_cases (b : DoVar) : b.toV = .pair (.sym b.name) (.pair b.init (listOf b.step.toList)) := rfl

theorem doInit_ok {n env : Nat} (hP : Honest Q (others n) P) (h0 : 0 ≠ n) (he : env ≠ n) (vars : List DoVar)
    (es : List (Name × V)) (s s1 : St σ) (f : Frame) (vs : List V) (hc : CleanSt Q (others n) s)
    (ha : CleanL (others n) (vars.map DoVar.init))
    (hf : s.frames[n]? = some f) (hp : f.parent = some env) (hnd : (vars.map DoVar.name).Nodup)
    (hdis : ∀ b ∈ vars, b.name ∉ es.map Prod.fst)
    (hun : ∀ b ∈ vars, Unbound s1.frames b.name env)
    (hv : evalArgs (run P) env (vars.map DoVar.init) s = some (.ok vs, s1)) :
    doInit (run P) env n (vars.map DoVar.toV) (repl n es s) =
      some (.ok (stepVars vars), repl n (((vars.map DoVar.name).zip vs).reverse ++ es) s1) := by
  have hrun := recOK_run hP h0
  have hid : Hid (others n) n := fun h => h rfl
  induction vars generalizing es s f vs with
  | nil => cases hv; rfl
  | cons b vars ih =>
    simp only [List.map_cons, evalArgs, bind_eq_some] at hv
    rcases hv with ⟨v, s2, h1, hv⟩ | ⟨e', h1, hh⟩
    · rcases hv with ⟨vs', s3, h2, hv⟩ | ⟨e', h2, hh⟩
      · cases hv
        have hpx := hdis b (by simp)
        rw [List.map_cons, List.nodup_cons] at hnd
        have hca : CleanL (others n) (b.init :: vars.map DoVar.init) := ha
        have k := hrun (.eval env b.init) ⟨he, hca.head⟩
        obtain ⟨f2, hf2, hpar, _⟩ := (run_ext h1).frames n f hf
        have c2 := (k.good _ _ _ trivial hc h1).1
        have hub := unbound_ext (evalArgs_ext h2) (hun b (by simp))
        rw [List.map_cons, doVar_cases]
        simp only [doInit, uncons, bind_apply, k.eqv (fun _ => trivial) n s es hid hc, h1, Option.map_some,
          bindDeep_fresh (v := v) c2 he hf2 (hpar.trans hp) hub hpx]
        rw [ih ((b.name, v) :: es) s2 f2 vs' c2 hca.tail hf2 (hpar.trans hp) hnd.2 ?_ (fun c hc => hun c (List.mem_cons_of_mem _ hc)) h2]
        · cases hst : b.step with
          | none =>
            simp [listOf, uncons, stepVars, hst, pure_apply]
          | some e =>
            simp [listOf, uncons, stepVars, hst, pure_apply]
        · intro c hc
          simp only [List.map_cons, List.mem_cons, not_or]
          refine ⟨?_, hdis c (List.mem_cons_of_mem _ hc)⟩
          intro h
          exact hnd.1 (h ▸ List.mem_map.2 ⟨c, hc, rfl⟩)
      · cases hh
    · cases hh

theorem doInit_stop {n env : Nat} (hP : Honest Q (others n) P) (h0 : 0 ≠ n) (he : env ≠ n) (vars : List DoVar)
    (es : List (Name × V)) (s s1 : St σ) (f : Frame) (e : Stop) (hc : CleanSt Q (others n) s)
    (ha : CleanL (others n) (vars.map DoVar.init))
    (hf : s.frames[n]? = some f) (hp : f.parent = some env) (hnd : (vars.map DoVar.name).Nodup)
    (hdis : ∀ b ∈ vars, b.name ∉ es.map Prod.fst)
    (hun : ∀ b ∈ vars, Unbound s1.frames b.name env)
    (hv : evalArgs (run P) env (vars.map DoVar.init) s = some (.stop e, s1)) :
    ∃ es', doInit (run P) env n (vars.map DoVar.toV) (repl n es s) = some (.stop e, repl n es' s1) := by
  have hrun := recOK_run hP h0
  have hid : Hid (others n) n := fun h => h rfl
  induction vars generalizing es s f with
  | nil => cases hv
  | cons b vars ih =>
    have hca : CleanL (others n) (b.init :: vars.map DoVar.init) := ha
    have k := hrun (.eval env b.init) ⟨he, hca.head⟩
    simp only [List.map_cons, evalArgs, bind_eq_some] at hv
    rcases hv with ⟨v, s2, h1, hv⟩ | ⟨e', h1, hh⟩
    · rcases hv with ⟨vs', s3, h2, hv⟩ | ⟨e', h2, hh⟩
      · cases hv
      · cases hh
        have hpx := hdis b (by simp)
        rw [List.map_cons, List.nodup_cons] at hnd
        obtain ⟨f2, hf2, hpar, _⟩ := (run_ext h1).frames n f hf
        have c2 := (k.good _ _ _ trivial hc h1).1
        have hub := unbound_ext (evalArgs_ext h2) (hun b (by simp))
        obtain ⟨es', hih⟩ := ih ((b.name, v) :: es) s2 f2 c2 hca.tail hf2 (hpar.trans hp) hnd.2 (by
          intro c hc
          simp only [List.map_cons, List.mem_cons, not_or]
          refine ⟨?_, hdis c (List.mem_cons_of_mem _ hc)⟩
          intro h
          exact hnd.1 (h ▸ List.mem_map.2 ⟨c, hc, rfl⟩)) (fun c hc => hun c (List.mem_cons_of_mem _ hc)) h2
        refine ⟨es', ?_⟩
        rw [List.map_cons, doVar_cases]
        simp only [doInit, uncons, bind_apply, k.eqv (fun _ => trivial) n s es hid hc, h1, Option.map_some,
          bindDeep_fresh (v := v) c2 he hf2 (hpar.trans hp) hub hpx, hih]
    · cases hh
      refine ⟨es, ?_⟩
      rw [List.map_cons, doVar_cases]
      simp only [doInit, uncons, bind_apply, k.eqv (fun _ => trivial) n s es hid hc, h1, Option.map_some]

theorem doSteps_eq {de : EnvId} (steps : List (Name × V)) (s : St σ) :
    doSteps (run P) de steps s = (evalArgs (run P) de (steps.map Prod.snd) s).map fun q =>
      (match q.1 with
        | .ok ws => .ok ((steps.map Prod.fst).zip ws)
        | .stop e => .stop e, q.2) := by
  induction steps generalizing s with
  | nil => rfl
  | cons b steps ih =>
    simp only [doSteps, List.map_cons, evalArgs, bind_apply]
    cases h1 : run P (.eval de b.2) s with
    | none => rfl
    | some q =>
      obtain ⟨o, s1⟩ := q
      cases o with
      | stop e => rfl
      | ok v =>
        simp only [ih]
        cases h2 : evalArgs (run P) de (steps.map Prod.snd) s1 with
        | none => rfl
        | some q =>
          obtain ⟨o, s2⟩ := q
          cases o <;> rfl

theorem modify_eq_upd (fr : List Frame) (e : Nat) (g) : (fr.modify e fun f => { f with entries := g f.entries }) = updFrame fr e g := by
  apply List.ext_getElem?
  intro i
  rw [getElem?_updFrame, List.getElem?_modify]
  by_cases h : e = i
  · subst h; simp
  · have : ¬ i = e := fun k => h k.symm
    simp [h, this]

theorem hasEntry_setEntry {x y : Name} {v : V} {es : List (Name × V)} (h : hasEntry x es = true) : hasEntry x (setEntry y v es) = true := by
  unfold hasEntry at *
  rw [← lookup_eq_findEntry] at *
  rw [lookup_setEntry]
  split
  · rename_i hx; subst hx; simpa using h
  · exact h

theorem doUpdate_apply {de : EnvId} (xs : List (Name × V)) (s : St σ) (f : Frame) (hf : s.frames[de]? = some f)
    (hh : ∀ b ∈ xs, hasEntry b.1 f.entries = true) : (doUpdate de xs : EM σ Unit) s = some (.ok (), assignVars s de xs) := by
  induction xs generalizing s f with
  | nil =>
    simp only [doUpdate, pure_apply, assignVars, List.foldl_nil]
    congr 3
    show s = { s with frames := s.frames.modify de fun f => f }
    rw [show (fun f : Frame => f) = id from rfl, List.modify_id]
  | cons b xs ih =>
    have hb := hh b (by simp)
    simp only [doUpdate, bind_apply, bindDeep, modSt_apply]
    have hfind : findFrame s.frames b.1 (de + 1) de = some de := by
      simp only [findFrame, hf, hb, if_true]
    have hins : insertDeep s.frames de b.1 b.2 = updFrame s.frames de (setEntry b.1 b.2) := by
      unfold insertDeep; rw [hfind]
    rw [hins]
    have hf' : (updFrame s.frames de (setEntry b.1 b.2))[de]? = some { f with entries := setEntry b.1 b.2 f.entries } := by
      rw [getElem?_updFrame, hf]; simp
    rw [ih { s with frames := updFrame s.frames de (setEntry b.1 b.2) } _ hf'
      (fun c hc => hasEntry_setEntry (hh c (List.mem_cons_of_mem _ hc)))]
    simp only [assignVars, List.foldl_cons]
    congr 3
    rw [modify_eq_upd _ _ (fun es => xs.foldl (fun es b => setEntry b.1 b.2 es) es),
      modify_eq_upd _ _ (fun es => xs.foldl (fun es b => setEntry b.1 b.2 es) (setEntry b.1 b.2 es)), updFrame_updFrame]
    rfl

/-- The step variables are bound in the loop frame. -/
def HasVars (s : St σ) (de : EnvId) (steps : List (Name × V)) : Prop :=
  ∃ f, s.frames[de]? = some f ∧ ∀ b ∈ steps, hasEntry b.1 f.entries = true

theorem HasVars.ext {s s' : St σ} {de steps} (h : HasVars s de steps) (hx : Ext s s') : HasVars s' de steps := by
  obtain ⟨f, hf, hh⟩ := h
  obtain ⟨f', hf', _, _, hk⟩ := hx.frames _ _ hf
  exact ⟨f', hf', fun b hb => hk _ (hh b hb)⟩

theorem argsEval_zip_length {E : ERel σ} {env : EnvId} {xs : List V} {s s1 : St σ} {vs : List V} (h : ArgsEval E env xs s (.ok vs) s1) :
    vs.length = xs.length := by
  induction xs generalizing s vs with
  | nil => cases h; rfl
  | cons x xs ih => cases h with | cons _ h => simp [ih h]

theorem doLoop_ok {de : EnvId} {test : V} {res body : List V} {steps : List (Name × V)} {s s' : St σ} {o : Out V}
    (h : DoLoop (Evals P) de test res body steps s o s') (hv : HasVars s de steps) :
    run P (.doLoop de test (listOf res) (listOf body) steps) s = some (o, s') := by
  induction h with
  | done h1 hr h2 =>
    rw [run_eq]
    show doLoop (run P) de test (listOf res) (listOf body) steps _ = _
    unfold doLoop
    rw [bind_apply, evals_iff.1 h1]
    cases res with
    | nil => exact absurd rfl hr
    | cons r rs =>
      simp only [listOf, reduceCtorEq, isPair, if_true]
      exact seq_nodes h2
  | doneEmpty h1 hr =>
    subst hr
    rw [run_eq]
    show doLoop (run P) de test (listOf []) (listOf body) steps _ = _
    unfold doLoop
    rw [bind_apply, evals_iff.1 h1]
    rfl
  | @iter s s1 us s2 ws s3 o s' h1 h2 h3 _ ih =>
    have e1 := (run_ext (evals_iff.1 h1))
    have e2 := evalArgs_ext (evalArgs_iff.2 h2)
    have e3 := evalArgs_ext (evalArgs_iff.2 h3)
    have hv3 : HasVars s3 de steps := ((hv.ext e1).ext e2).ext e3
    obtain ⟨f3, hf3, hh3⟩ := hv3
    have hzip : ∀ b ∈ (steps.map Prod.fst).zip ws, hasEntry b.1 f3.entries = true := by
      intro b hb
      obtain ⟨c, hc, hcb⟩ := List.mem_map.1 (List.of_mem_zip hb).1
      rw [← hcb]
      exact hh3 c hc
    have hupd := doUpdate_apply ((steps.map Prod.fst).zip ws) s3 f3 hf3 hzip
    have hv4 : HasVars (assignVars s3 de ((steps.map Prod.fst).zip ws)) de steps := by
      refine ⟨{ f3 with entries := ((steps.map Prod.fst).zip ws).foldl (fun es b => setEntry b.1 b.2 es) f3.entries }, ?_, ?_⟩
      · simp [assignVars, hf3]
      · intro b hb
        have : ∀ (xs : List (Name × V)) (es : List (Name × V)), hasEntry b.1 es = true →
            hasEntry b.1 (xs.foldl (fun es b => setEntry b.1 b.2 es) es) = true := by
          intro xs
          induction xs with
          | nil => intro es h; exact h
          | cons c xs ih => intro es h; exact ih _ (hasEntry_setEntry h)
        exact this _ _ (hh3 b hb)
    rw [run_eq]
    show doLoop (run P) de test (listOf res) (listOf body) steps _ = _
    unfold doLoop
    rw [bind_apply, evals_iff.1 h1]
    simp only [bind_apply, nodes_listOf, evalArgs_iff.2 h2, doSteps_eq, evalArgs_iff.2 h3, Option.map_some, hupd]
    exact ih hv4
  | testStop h1 =>
    rw [run_eq]
    show doLoop (run P) de test (listOf res) (listOf body) steps _ = _
    unfold doLoop
    rw [bind_apply, evals_iff.1 h1]
  | bodyStop h1 h2 =>
    rw [run_eq]
    show doLoop (run P) de test (listOf res) (listOf body) steps _ = _
    unfold doLoop
    rw [bind_apply, evals_iff.1 h1]
    simp only [bind_apply, nodes_listOf, evalArgs_iff.2 h2]
  | stepStop h1 h2 h3 =>
    rw [run_eq]
    show doLoop (run P) de test (listOf res) (listOf body) steps _ = _
    unfold doLoop
    rw [bind_apply, evals_iff.1 h1]
    simp only [bind_apply, nodes_listOf, evalArgs_iff.2 h2, doSteps_eq, evalArgs_iff.2 h3, Option.map_some]

/-! ## C52 -/

/-- C52: `do` evaluates the initial expressions from left to right outside the loop, binds the variables in a new frame, and then runs the
loop as `DoLoop` says.  Partial: the variables must not be variables of an enclosing frame (else those are overwritten,
`c52_overwrites`), and tests are `#t` or `#f` (`c52_nonboolean`). -/
theorem c52_do_partial {env : EnvId} {vars : List DoVar} {test : V} {res body vs : List V} {f : Frame} {s s1 s' : St σ} {o : Out V}
    (hP : Honest Q (others s.frames.length) P) (hu : Unreferenced Q s.frames.length s) (hm : NoMacro s "do")
    (hf : s.frames[env]? = some f) (ha : CleanL (others s.frames.length) (vars.map DoVar.init)) (hnd : (vars.map DoVar.name).Nodup)
    (hv : ArgsEval (Evals P) env (vars.map DoVar.init) (enter s env f.modl) (.ok vs) s1)
    (hun : ∀ b ∈ vars, Unbound s1.frames b.name env)
    (h : DoLoop (Evals P) s.frames.length test res body (stepVars vars)
      (withEntries s1 s.frames.length ((vars.map DoVar.name).zip vs).reverse) o s') :
    Evals P env (doExpr vars test res body) s o s' := by
  have he : env < s.frames.length := (List.getElem?_eq_some_iff.1 hf).1
  have hc := hu.enter (md := f.modl) he
  have hinit := doInit_ok hP hu.pos (by omega) vars [] (enter s env f.modl) s1 ⟨[], some env, f.modl⟩ vs hc ha (by simp [enter]) rfl hnd
    (by simp) hun (evalArgs_iff.2 hv)
  rw [enter_repl, List.append_nil, ← withEntries_eq] at hinit
  show Evals P env (.pair (.sym "do") (.pair (listOf (vars.map DoVar.toV)) (.pair (.pair test (listOf res)) (listOf body)))) s o s'
  rw [evals_form (f := .do_) hm (by decide)]
  simp only [evalForm, evalDo]
  have hl : isList (listOf (vars.map DoVar.toV)) = true := by cases vars <;> rfl
  rw [if_pos hl]
  simp only [bind_apply, newEnv_apply hf, nodes_listOf]
  have : ({ s with frames := s.frames ++ [⟨[], some env, f.modl⟩] } : St σ) = enter s env f.modl := rfl
  rw [this, hinit]
  refine doLoop_ok h ?_
  obtain ⟨f1, hf1, _⟩ := (evalArgs_ext (evalArgs_iff.2 hv)).frames s.frames.length ⟨[], some env, f.modl⟩ (by simp [enter])
  refine ⟨{ f1 with entries := ((vars.map DoVar.name).zip vs).reverse }, by simp [withEntries, hf1], ?_⟩
  intro b hb
  obtain ⟨c, hc, hcb⟩ := List.mem_filterMap.1 hb
  have hname : b.1 = c.name := by
    cases hst : c.step with
    | none => rw [hst] at hcb; cases hcb
    | some e => rw [hst] at hcb; cases hcb; rfl
  have hvl : vs.length = vars.length := by simpa using argsEval_zip_length hv
  obtain ⟨i, hi⟩ := List.mem_iff_getElem?.1 hc
  have hil : i < vars.length := (List.getElem?_eq_some_iff.1 hi).1
  have hmem : (b.1, vs[i]'(by omega)) ∈ ((vars.map DoVar.name).zip vs).reverse := by
    rw [List.mem_reverse, List.mem_iff_getElem?]
    refine ⟨i, ?_⟩
    rw [List.getElem?_zip_eq_some]
    exact ⟨by simp [hi, hname], List.getElem?_eq_some_iff.2 ⟨by omega, rfl⟩⟩
  generalize ((vars.map DoVar.name).zip vs).reverse = es at hmem
  induction es with
  | nil => cases hmem
  | cons p es ih =>
    unfold hasEntry
    simp only [findEntry]
    split
    · rfl
    · rename_i hne
      rcases List.mem_cons.1 hmem with h | h
      · exact absurd (congrArg Prod.fst h).symm hne
      · exact ih h

/-- C52: an initial expression that does not return. -/
theorem c52_init_stop {env : EnvId} {vars : List DoVar} {test : V} {res body : List V} {f : Frame} {s s1 : St σ} {e : Stop}
    (hP : Honest Q (others s.frames.length) P) (hu : Unreferenced Q s.frames.length s) (hm : NoMacro s "do")
    (hf : s.frames[env]? = some f) (ha : CleanL (others s.frames.length) (vars.map DoVar.init)) (hnd : (vars.map DoVar.name).Nodup)
    (hv : ArgsEval (Evals P) env (vars.map DoVar.init) (enter s env f.modl) (.stop e) s1)
    (hun : ∀ b ∈ vars, Unbound s1.frames b.name env) :
    ∃ es, Evals P env (doExpr vars test res body) s (.stop e) (withEntries s1 s.frames.length es) := by
  have he : env < s.frames.length := (List.getElem?_eq_some_iff.1 hf).1
  have hc := hu.enter (md := f.modl) he
  obtain ⟨es, hinit⟩ := doInit_stop hP hu.pos (by omega) vars [] (enter s env f.modl) s1 ⟨[], some env, f.modl⟩ e hc ha (by simp [enter]) rfl hnd
    (by simp) hun (evalArgs_iff.2 hv)
  refine ⟨es, ?_⟩
  rw [enter_repl, ← withEntries_eq] at hinit
  show Evals P env (.pair (.sym "do") (.pair (listOf (vars.map DoVar.toV)) (.pair (.pair test (listOf res)) (listOf body)))) s _ _
  rw [evals_form (f := .do_) hm (by decide)]
  simp only [evalForm, evalDo]
  have hl : isList (listOf (vars.map DoVar.toV)) = true := by cases vars <;> rfl
  rw [if_pos hl]
  simp only [bind_apply, newEnv_apply hf, nodes_listOf]
  have : ({ s with frames := s.frames ++ [⟨[], some env, f.modl⟩] } : St σ) = enter s env f.modl := rfl
  rw [this, hinit]

/-- `(do ((i 0 j) (j 1 i)) ((< 0 i) (list i j)))`: the steps are simultaneous. -/
def swapVars : List DoVar := [⟨"i", .num 0, some (.sym "j")⟩, ⟨"j", .num 1, some (.sym "i")⟩]

example : ∃ s', Evals Demo.prims 0 (doExpr swapVars (listOf [.sym "<", .num 0, .sym "i"]) [listOf [.sym "list", .sym "i", .sym "j"]] [])
    Demo.s0 (.ok (listOf [.num 1, .num 0])) s' := by
  refine ⟨assignVars (withEntries (enter Demo.s0 0 Option.none) 1 [("j", .num 1), ("i", .num 0)]) 1 [("i", .num 1), ("j", .num 0)],
    c52_do_partial (s := Demo.s0) (P := Demo.prims) (Q := fun _ => True) (f := ⟨Demo.builtins, Option.none, Option.none⟩)
    (vs := [.num 0, .num 1]) (s1 := enter Demo.s0 0 Option.none) (Demo.honest 1) Demo.unreferenced (Demo.noMacro_s0 _) rfl ?_ (by decide)
    (.cons ⟨1, rfl⟩ (.cons ⟨1, rfl⟩ .nil)) ?_ ?_⟩
  · intro x hx
    simp only [swapVars, List.map_cons, List.map_nil, List.mem_cons, List.not_mem_nil, or_false] at hx
    rcases hx with rfl | rfl <;> trivial
  · intro b hb i v hv
    simp only [swapVars, List.mem_cons, List.not_mem_nil, or_false] at hb
    cases hv with
    | here hf hl =>
      cases hf
      rcases hb with rfl | rfl <;> cases hl
    | up hf hl hp _ => cases hf; cases hp
  · exact .iter ⟨4, rfl⟩ .nil (.cons ⟨1, rfl⟩ (.cons ⟨1, rfl⟩ .nil)) (.done ⟨4, rfl⟩ (by simp) (.last ⟨4, rfl⟩))

/-- C52 is false when an enclosing frame has a variable of the same name: with `i` = 7 outside, `(do ((i 0 (+ i 1))) ((< 0 i)))` leaves
it 1. -/
theorem c52_overwrites : ∃ s', Evals Demo.prims 1
    (listOf [.sym "begin", doExpr [⟨"i", .num 0, some (listOf [.sym "+", .sym "i", .num 1])⟩] (listOf [.sym "<", .num 0, .sym "i"]) [] [],
      .sym "i"]) (Demo.inFrame [("i", .num 7)]) (.ok (.num 1)) s' :=
  Demo.evals_of 12 (by decide +kernel)

/-- C52 is false when the test value is true but not `#t`: `(do () (1 'done))` raises a type error. -/
theorem c52_nonboolean : ∃ s', Evals Demo.prims 0 (doExpr [] (.num 1) [listOf [.sym "quote", .sym "done"]] []) Demo.s0
    (.stop (.err Option.none "error" (listOf [.str "Type error"]))) s' :=
  Demo.evals_of 6 (by decide +kernel)

end Pscm
