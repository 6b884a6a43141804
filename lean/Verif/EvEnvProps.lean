import Verif.EvLemmas
import Verif.EvDemo
/-!
# C38-C41: variables, assignment, definition, determinism
-/
namespace Pscm
open Ev
variable {σ : Type}

/-! ## C41 -/

/-- C41: a run that ends ends the same way with every larger step budget. -/
theorem c41_fuel (P : Prims σ) (t : Task) (s : St σ) (n m : Nat) (r : Out V × St σ)
    (h : ev P n t s = some r) (hle : n ≤ m) : ev P m t s = some r :=
  (ev_le P hle t).le s r h

/-- C41: evaluation is deterministic. -/
theorem c41_deterministic (P : Prims σ) (env : EnvId) (e : V) (s : St σ) (o o' : Out V) (s1 s2 : St σ)
    (h : Evals P env e s o s1) (k : Evals P env e s o' s2) : o = o' ∧ s1 = s2 :=
  evals_det h k

example : ev Demo.prims 4 (.eval 0 (Demo.l [Demo.y "+", Demo.n 1, Demo.n 2])) Demo.s0 = some (.ok (.num 3), Demo.s0) := by
  rfl

/-! ## C38 -/

/-- C38: a variable reference. The innermost enclosing frame that binds the name decides; without one, the module of the
environment, then the current module, then the global environment; otherwise it is an error. The state is unchanged. -/
theorem c38_reference (P : Prims σ) (env : EnvId) (x : Name) (s : St σ) (wf : FramesWF s.frames)
    (hk : isKeyword x = false) :
    (∀ i v, Binds s.frames x env i v → Evals P env (.sym x) s (.ok v) s) ∧
    (Unbound s.frames x env →
      (∀ m v, ModuleOf s.frames env m → moduleValue s.mods s.root m x = some v → Evals P env (.sym x) s (.ok v) s) ∧
      ((∀ m, ModuleOf s.frames env m → moduleValue s.mods s.root m x = Option.none) →
        (∀ v, moduleValue s.mods s.root s.cur x = some v → Evals P env (.sym x) s (.ok v) s) ∧
        (moduleValue s.mods s.root s.cur x = Option.none →
          (∀ v, Binds s.frames x 0 0 v → Evals P env (.sym x) s (.ok v) s) ∧
          ((∀ v, ¬ Binds s.frames x 0 0 v) →
            Evals P env (.sym x) s (.stop (throwStop s "error" (.pair (.str "symbol not found") .nil))) s)))) := by
  have key : ∀ o, lookupSymbol env x s = some (o, s) → Evals P env (.sym x) s o s := by
    intro o h
    rw [evals_step]
    show (if isKeyword x = true then pure (.sym x) else lookupSymbol env x : EM σ V) s = _
    rw [hk]; exact h
  have hl : ∀ r, envSearch s env x = r → lookupSymbol env x s = (match r with
      | some v => some (.ok v, s)
      | Option.none => some (.stop (throwStop s "error" (.pair (.str "symbol not found") .nil)), s)) := by
    intro r h
    unfold lookupSymbol
    rw [getSt_bind, h]
    cases r <;> rfl
  have own : ∀ v, lookOwn s.frames 0 x = some v ↔ Binds s.frames x 0 0 v := by
    intro v
    constructor
    · intro h
      unfold lookOwn at h
      split at h
      · rename_i f hf
        exact .here hf (by rw [lookup_eq_findEntry]; exact h)
      · cases h
    · intro h; exact h.own
  refine ⟨?_, ?_⟩
  · intro i v hb
    apply key
    rw [hl (some v)]
    unfold envSearch
    rw [(lookChain_iff wf).2 ⟨i, hb⟩]
  · intro hu
    have h1 : lookChain s.frames env x = Option.none := (lookChain_none wf).2 hu
    refine ⟨?_, ?_⟩
    · intro m v hm hv
      apply key
      rw [hl (some v)]
      unfold envSearch
      have h2 : chainValue s env x = some v := by
        unfold chainValue
        rw [(chainModule_iff wf _ (Nat.lt_succ_self _)).2 hm]
        simp only [searchModule_eq, hv]
      rw [h1, h2]
    · intro hno
      have h2 : chainValue s env x = Option.none := by
        unfold chainValue
        cases hc : chainModule s.frames (env + 1) env with
        | none => rfl
        | some m =>
          simp only [searchModule_eq]
          exact hno m ((chainModule_iff wf _ (Nat.lt_succ_self _)).1 hc)
      refine ⟨?_, ?_⟩
      · intro v hv
        apply key
        rw [hl (some v)]
        unfold envSearch
        rw [h1, h2]
        simp only [searchModule_eq, hv]
      · intro hcur
        by_cases he : env = 0
        · subst he
          refine ⟨fun v hb => absurd hb (hu 0 v), ?_⟩
          intro _
          apply key
          rw [hl Option.none]
          unfold envSearch
          rw [h1, h2]
          simp only [searchModule_eq, hcur, ne_eq, not_true_eq_false, if_false]
        · refine ⟨?_, ?_⟩
          · intro v hb
            apply key
            rw [hl (some v)]
            unfold envSearch
            rw [h1, h2]
            simp only [searchModule_eq, hcur, ne_eq, he, not_false_eq_true, if_true]
            exact (own v).2 hb
          · intro hb
            apply key
            rw [hl Option.none]
            unfold envSearch
            rw [h1, h2]
            simp only [searchModule_eq, hcur, ne_eq, he, not_false_eq_true, if_true]
            cases ho : lookOwn s.frames 0 x with
            | none => rfl
            | some v => exact absurd ((own v).1 ho) (hb v)

example : Binds (Demo.inFrame [("x", .num 1)]).frames "x" 1 1 (.num 1) := .here rfl rfl
example : Binds (Demo.inFrame [("x", .num 1)]).frames "car" 1 0 (.func "car" 1) := .up rfl rfl rfl (.here rfl rfl)
example : Unbound (Demo.inFrame [("x", .num 1)]).frames "z" 1 := (lookChain_none (Demo.wf_inFrame _)).1 rfl

/-- Parents are older than their children in every state that an evaluation can reach: the hypothesis of the theorems of
this file is an invariant. -/
theorem c38_wf (P : Prims σ) (env : EnvId) (e : V) (s s' : St σ) (o : Out V) (wf : FramesWF s.frames)
    (h : Evals P env e s o s') : FramesWF s'.frames :=
  (run_ext (evals_iff.1 h)).wf wf

/-- C38 for the operator position, in the root module and when no macro of that name exists: the operator is looked up like
any other variable. -/
theorem c38_operator_partial (P : Prims σ) (env : EnvId) (x : Name) (v rest : V) (s s' : St σ) (o : Out V)
    (hroot : s.cur = s.root) (hm : NoMacro s x) (hf : formOf x = Option.none)
    (hk : isKeyword x = false) (hx : Evals P env (.sym x) s (.ok v) s)  :
    Evals P env (.pair (.sym x) rest) s o s' ↔ Evals P env (.pair v rest) s o s' := by
  have hl : lookupSymbol env x s = some (.ok v, s) := by
    rw [evals_step] at hx
    change (if isKeyword x = true then pure (.sym x) else lookupSymbol env x : EM σ V) s = _ at hx
    rw [hk] at hx; exact hx
  rw [evals_step (e := .pair (.sym x) rest)]
  show evalPair P (run P) env (.sym x) rest s = _ ↔ _
  unfold evalPair
  simp only [getSt_bind, hf]
  cases hv : opValue s env x with
  | none =>
    simp only [bind_apply, hl]
    exact evals_iff.symm
  | some w =>
    have hw : w = v := by
      have hown : lookOwn s.frames env x = some w := by
        unfold opValue at hv
        split at hv
        · rename_i u hu; cases hv; exact hu
        · rw [if_neg (by simp [hroot])] at hv
          simp only at hv
          split at hv
          · rename_i u hu
            split at hv
            · rename_i hmac; rw [hm.own hu] at hmac; cases hmac
            · cases hv
          · cases hv
      unfold lookupSymbol envSearch at hl
      rw [getSt_bind] at hl
      have hc : lookChain s.frames env x = some w := by
        unfold lookChain findFrame
        unfold lookOwn at hown
        split at hown
        · rename_i f hf'
          have hh : hasEntry x f.entries = true := by simp [hasEntry, hown]
          simp only [hf', hh, if_true, lookOwn]
          exact hown
        · cases hown
      rw [hc] at hl
      cases hl; rfl
    subst hw
    have hnm := hm.op hv
    cases w <;> simp only [pure_bind', evals_iff] <;> first | exact Iff.rfl | cases hnm

example : (Demo.inFrame [("x", .num 1)]).cur = (Demo.inFrame [("x", .num 1)]).root := rfl

/-- A state with two modules, the second current, in which `f` is bound in the module and in an enclosing frame. -/
def c38State : St Unit :=
  { Demo.s0 with
    frames := [⟨[], Option.none, Option.none⟩, ⟨[("f", .proc .nil (Demo.l [Demo.n 1]) 0)], some 0, Option.none⟩,
      ⟨[], some 1, Option.none⟩]
    mods := [⟨Demo.l [Demo.y "root"], [], [], [], Option.none⟩,
      ⟨Demo.l [Demo.y "m"], [("f", .proc .nil (Demo.l [Demo.n 2]) 0)], [], [], Option.none⟩]
    cur := 1 }

/-- C38 is FALSE for the operator position outside the root module: the module's binding wins over an enclosing frame's. The
variable `f` is the procedure returning 1, yet `(f)` returns 2. -/
theorem c38_counterexample :
    Binds c38State.frames "f" 2 1 (.proc .nil (Demo.l [Demo.n 1]) 0) ∧
    Evals Demo.prims 2 (.sym "f") c38State (.ok (.proc .nil (Demo.l [Demo.n 1]) 0)) c38State ∧
    (∃ s', Evals Demo.prims 2 (Demo.l [Demo.y "f"]) c38State (.ok (.num 2)) s') :=
  ⟨.up rfl rfl rfl (.here rfl rfl), ⟨1, rfl⟩, ⟨_, 4, rfl⟩⟩

/-! ## C39 -/

/-- C39: `set!` of a lexically bound variable changes exactly the binding it names. -/
theorem c39_set (P : Prims σ) (env : EnvId) (x : Name) (e v w : V) (i : Nat) (s s1 : St σ) (wf : FramesWF s.frames)
    (hm : NoMacro s "set!") (he : Evals P env e s (.ok v) s1) (hb : Binds s1.frames x env i w) :
    ∃ s', Evals P env (listOf [.sym "set!", .sym x, e]) s (.ok .none) s' ∧
      s' = { s1 with frames := s'.frames } ∧
      Binds s'.frames x env i v ∧
      ∀ z e' j u, Binds s'.frames z e' j u ↔
        if z = x ∧ j = i then u = v ∧ ∃ u0, Binds s1.frames z e' j u0 else Binds s1.frames z e' j u := by
  have wf1 := (run_ext (evals_iff.1 he)).wf wf
  refine ⟨assignSt s1 env x v, ?_, ?_⟩
  · rw [show listOf [V.sym "set!", .sym x, e] = .pair (.sym "set!") (.pair (.sym x) (.pair e .nil)) from rfl]
    rw [evals_form (f := .set) hm (by decide)]
    simp only [evalForm]
    simp only [evalSet, uncons, bind_eq_some]
    exact .inl ⟨v, s1, evals_iff.1 he, .inl ⟨(), _, rfl, rfl⟩⟩
  · have hs : assignSt s1 env x v = { s1 with frames := updFrame s1.frames i (setEntry x v) } := by
      unfold assignSt
      rw [findFrame_complete wf1 hb (env + 1) (Nat.lt_succ_self _)]
    rw [hs]
    have key := binds_setEntry (v := v) hb.at
    refine ⟨rfl, ?_, key⟩
    exact (key x env i v).2 (by simp; exact ⟨w, hb⟩)

example : Evals Demo.prims 1 (Demo.n 7) (Demo.inFrame [("x", .num 1)]) (.ok (.num 7)) (Demo.inFrame [("x", .num 1)]) ∧
    Binds (Demo.inFrame [("x", .num 1)]).frames "x" 1 1 (.num 1) ∧ NoMacro (Demo.inFrame [("x", .num 1)]) "set!" :=
  ⟨⟨1, rfl⟩, .here rfl rfl, Demo.noMacro_inFrame _ (by simp [isMacro])⟩

/-- C39: `set!` of a variable that no frame binds but the current module does: exactly the binding of the module that the lookup
finds is changed. -/
theorem c39_set_module (P : Prims σ) (env : EnvId) (x : Name) (e v : V) (m : Nat) (s s1 : St σ) (wf : FramesWF s.frames)
    (hm : NoMacro s "set!") (he : Evals P env e s (.ok v) s1) (hb : Unbound s1.frames x env)
    (hf : (searchOrder s1.mods s1.root s1.cur).find? (fun u => (ownValue s1.mods x u).isSome) = some m) :
    ∃ s', Evals P env (listOf [.sym "set!", .sym x, e]) s (.ok .none) s' ∧
      s' = { s1 with mods := s'.mods } ∧
      ∀ z u, ownValue s'.mods z u = if z = x ∧ u = m then some v else ownValue s1.mods z u := by
  have wf1 := (run_ext (evals_iff.1 he)).wf wf
  refine ⟨assignSt s1 env x v, ?_, ?_⟩
  · rw [show listOf [V.sym "set!", .sym x, e] = .pair (.sym "set!") (.pair (.sym x) (.pair e .nil)) from rfl]
    rw [evals_form (f := .set) hm (by decide)]
    simp only [evalForm]
    simp only [evalSet, uncons, bind_eq_some]
    exact .inl ⟨v, s1, evals_iff.1 he, .inl ⟨(), _, rfl, rfl⟩⟩
  · have hs : assignSt s1 env x v = { s1 with mods := obSet s1.mods m x v } := by
      unfold assignSt
      rw [(findFrame_none wf1).2 hb]
      simp only
      rw [findModule_eq, hf]
    rw [hs]
    refine ⟨rfl, ?_⟩
    intro z u
    have hme : ∃ md, s1.mods[m]? = some md := by
      have := List.find?_some hf
      simp only [ownValue] at this
      cases hmm : s1.mods[m]? with
      | none => rw [hmm] at this; cases this
      | some md => exact ⟨md, rfl⟩
    obtain ⟨md, hmd⟩ := hme
    exact ownValue_obSet hmd z u

/-- A frame that belongs to module 1, executed while module 0 is current. -/
def c39State : St Unit :=
  { Demo.s0 with
    frames := [⟨[], Option.none, Option.none⟩, ⟨[], some 0, some 1⟩]
    mods := [⟨Demo.l [Demo.y "root"], [], [], [], Option.none⟩,
      ⟨Demo.l [Demo.y "m"], [("x", .num 1)], [], [], Option.none⟩] }

/-- C39 is FALSE for procedures of a module called from another module: the variable reference finds the module's `x`, but `set!`
does not; it creates a new local variable and leaves the module's `x` unchanged. -/
theorem c39_counterexample :
    Evals Demo.prims 1 (.sym "x") c39State (.ok (.num 1)) c39State ∧
    ∃ s', Evals Demo.prims 1 (Demo.l [Demo.y "set!", Demo.y "x", Demo.n 5]) c39State (.ok .none) s' ∧
      ownValue s'.mods "x" 1 = some (.num 1) ∧ Binds s'.frames "x" 1 1 (.num 5) :=
  ⟨⟨1, rfl⟩, _, ⟨2, rfl⟩, rfl, .here rfl rfl⟩

/-! ## C40 -/

/-- C40, for `(define x e)` in a procedure body that belongs to no module: only the body's own frame changes. -/
theorem c40_local_partial (P : Prims σ) (env p : Nat) (x : Name) (e v : V) (s s1 : St σ) (f : Frame)
    (hm : NoMacro s "define") (he : Evals P env e s (.ok v) s1)
    (hf : s.frames[env]? = some f) (hp : f.parent = some p) (hmod : f.modl = Option.none) :
    ∃ s', Evals P env (listOf [.sym "define", .sym x, e]) s (.ok .none) s' ∧
      s' = { s1 with frames := s'.frames } ∧ Binds s'.frames x env env v ∧
      (∀ i, i ≠ env → s'.frames[i]? = s1.frames[i]?) ∧
      (∀ z, z ≠ x → ∀ u, Binds s'.frames z env env u ↔ Binds s1.frames z env env u) := by
  obtain ⟨f1, h1, h2, h3, _⟩ := (run_ext (evals_iff.1 he)).frames env f hf
  refine ⟨defineSt s1 env x v, ?_, ?_⟩
  · rw [show listOf [V.sym "define", .sym x, e] = .pair (.sym "define") (.pair (.sym x) (.pair e .nil)) from rfl]
    rw [evals_form (f := .define) hm (by decide)]
    simp only [evalForm]
    simp only [evalDefine, uncons, bind_eq_some]
    exact .inl ⟨v, s1, evals_iff.1 he, .inl ⟨(), _, rfl, rfl⟩⟩
  · have hs : defineSt s1 env x v = { s1 with frames := insertOwn s1.frames env x v } := by
      unfold defineSt
      simp only [h1, h2.trans hp, h3.trans hmod]
    rw [hs]
    have hfe : (insertOwn s1.frames env x v)[env]? = some { f1 with entries := upsert x v f1.entries } := by
      unfold insertOwn; rw [getElem?_updFrame, h1]; simp
    refine ⟨rfl, .here hfe (lookup_upsert_self ..), ?_, ?_⟩
    · intro i hi
      show (insertOwn s1.frames env x v)[i]? = _
      unfold insertOwn; rw [getElem?_updFrame]
      simp [hi]
    · intro z hz u
      constructor
      · intro h
        obtain ⟨g, hg, hg'⟩ := h.at
        change (insertOwn s1.frames env x v)[env]? = _ at hg
        rw [hfe] at hg; cases hg
        exact .here h1 (by rw [← hg']; exact (lookup_upsert_ne hz ..).symm)
      · intro h
        obtain ⟨g, hg, hg'⟩ := h.at
        rw [h1] at hg; cases hg
        exact .here hfe (by rw [← hg']; exact lookup_upsert_ne hz ..)

example : ∃ f : Frame, (Demo.inFrame [("x", .num 1)]).frames[1]? = some f ∧ f.parent = some 0 ∧ f.modl = Option.none :=
  ⟨_, rfl, rfl, rfl⟩

/-- C40 is FALSE for procedure definitions: `((lambda () (define (f) 1) 2))` leaves `f` defined outside the body. -/
theorem c40_counterexample :
    ownValue Demo.s0.mods "f" 0 = Option.none ∧
    ∃ s', Evals Demo.prims 0 (Demo.l [Demo.l [Demo.y "lambda", .nil, Demo.l [Demo.y "define", Demo.l [Demo.y "f"], Demo.n 1], Demo.n 2]])
        Demo.s0 (.ok (.num 2)) s' ∧
      (∃ p, Evals Demo.prims 0 (.sym "f") s' (.ok p) s') ∧ ∃ p, ownValue s'.mods "f" 0 = some p :=
  ⟨rfl, _, ⟨6, rfl⟩, ⟨_, 1, rfl⟩, _, rfl⟩

/-- C40 is FALSE for variable definitions inside procedures of a module file: the frame of the body carries the module pointer, and
`(define x 5)` in the body changes the module's `x`. -/
theorem c40_counterexample_module :
    ownValue c39State.mods "x" 1 = some (.num 1) ∧
    ∃ s', Evals Demo.prims 1 (Demo.l [Demo.y "define", Demo.y "x", Demo.n 5]) c39State (.ok .none) s' ∧
      ownValue s'.mods "x" 1 = some (.num 5) :=
  ⟨rfl, _, ⟨2, rfl⟩, rfl⟩

end Pscm
