import Verif.EvLoadProps
/-!
# C92 – C94: what modules keep, how they are found and loaded, the options of define-module
-/
namespace Pscm
open Ev
variable {σ : Type} {P : Prims σ}

/-! ## C92: nothing is ever unbound -/

theorem ownValue_isSome {ms : List Modl} {x : Name} {m : Nat} :
    (ownValue ms x m).isSome = true ↔ ∃ md : Modl, ms[m]? = some md ∧ hasEntry x md.obarray = true := by
  unfold ownValue hasEntry
  cases h : ms[m]? with
  | none => simp
  | some md => simp [lookup_eq_findEntry]

theorem ownValue_kept {ms ms' : List Modl} (k : ModsKept ms ms') {x : Name} {m : Nat} (h : (ownValue ms x m).isSome = true) :
    (ownValue ms' x m).isSome = true := by
  obtain ⟨md, h1, h2⟩ := ownValue_isSome.1 h
  obtain ⟨md', k1, k2⟩ := k m md h1
  exact ownValue_isSome.2 ⟨md', k1, k2.binds x h2⟩

theorem noBinding_kept {ms ms' : List Modl} (k : ModsKept ms ms') {root m : Nat} {x : Name} (h : NoBinding ms' root m x) : NoBinding ms root m x := by
  intro u hu
  have hu' : u ∈ searchOrder ms' root m := by
    unfold searchOrder at hu ⊢
    cases hm : ms[m]? with
    | none => rw [hm] at hu; cases hu
    | some md =>
      rw [hm] at hu
      obtain ⟨md', k1, k2⟩ := k m md hm
      rw [k1]
      simp only [List.cons_append, List.mem_cons, List.mem_append] at hu ⊢
      rcases hu with hu | hu | hu
      · exact .inl hu
      · exact .inr (.inl (k2.uses.subset hu))
      · exact .inr (.inr hu)
  cases hv : ownValue ms x u with
  | none => rfl
  | some v =>
    have := ownValue_kept k (x := x) (m := u) (by rw [hv]; rfl)
    rw [h u hu'] at this
    cases this

/-- C92: a variable of a module that has a value has one for ever after: no evaluation unbinds it, removes an import, or takes an import's
binding away. -/
theorem c92_variable {s s' : St σ} {m : Nat} {x : Name} (h : Afterwards P s s') (hb : ∃ u v, FirstBinding s.mods s.root m x u v) :
    ∃ u v, FirstBinding s'.mods s'.root m x u v := by
  obtain ⟨k, hr⟩ := afterwards_mods h
  have hn : ¬ NoBinding s'.mods s'.root m x := by
    rw [hr]
    intro hn
    obtain ⟨u, v, hf⟩ := hb
    have h1 := moduleValue_none.2 (noBinding_kept k hn)
    rw [moduleValue_some.2 ⟨u, hf⟩] at h1
    cases h1
  cases hv : moduleValue s'.mods s'.root m x with
  | none => exact absurd (moduleValue_none.1 hv) hn
  | some v =>
    obtain ⟨u, hu⟩ := moduleValue_some.1 hv
    exact ⟨u, v, hu⟩

/-- C92: imports and exports are only ever added, in front of the existing ones, and the interface of a module stays the same object. -/
theorem c92_module {s s' : St σ} {m : Nat} {md : Modl} (h : Afterwards P s s') (hm : s.mods[m]? = some md) :
    ∃ md' : Modl, s'.mods[m]? = some md' ∧ md'.name = md.name ∧ md.uses <:+ md'.uses ∧ md.exports <:+ md'.exports ∧
      ∀ i, md.pub = some i → md'.pub = some i := by
  obtain ⟨md', h1, h2⟩ := (afterwards_mods h).1 m md hm
  exact ⟨md', h1, h2.name, h2.uses, h2.exports, h2.pub⟩

theorem binds_afterwards {s s' : St σ} {x : Name} {e i : EnvId} {v : V} (h : Afterwards P s s') (hb : Binds s.frames x e i v) :
    ∃ j w, Binds s'.frames x e j w := by
  induction hb with
  | @here e f v hf hl =>
    obtain ⟨f', h1, _, _, h4⟩ := afterwards_ext h e f hf
    have := h4 x (hasEntry_iff.2 ⟨v, hl⟩)
    obtain ⟨w, hw⟩ := hasEntry_iff.1 this
    exact ⟨e, w, .here h1 hw⟩
  | @up e f p i v hf hl hp _ ih =>
    obtain ⟨f', h1, h2, _, h4⟩ := afterwards_ext h e f hf
    obtain ⟨j, w, hw⟩ := ih
    cases hx : f'.entries.lookup x with
    | some u => exact ⟨e, u, .here h1 hx⟩
    | none => exact ⟨j, w, .up h1 hx (h2.trans hp) hw⟩

theorem moduleOf_afterwards {s s' : St σ} {e : EnvId} {m : Nat} (h : Afterwards P s s') (hm : ModuleOf s.frames e m) : ModuleOf s'.frames e m := by
  induction hm with
  | @here e f m hf hl =>
    obtain ⟨f', h1, _, h3, _⟩ := afterwards_ext h e f hf
    exact .here h1 (h3.trans hl)
  | @up e f p m hf hl hp _ ih =>
    obtain ⟨f', h1, h2, h3, _⟩ := afterwards_ext h e f hf
    exact .up h1 (h3.trans hl) (h2.trans hp) ih

theorem afterwards_wf {s s' : St σ} (h : Afterwards P s s') (w : FramesWF s.frames) : FramesWF s'.frames := by
  induction h with
  | refl => exact w
  | step _ h ih => exact (run_ext (evals_iff.1 h)).wf ih

/-- C92: a variable that can be referenced at some point of the program can be referenced for ever after, from the same environment, as long as the
current module is the same. -/
theorem c92_reference {s s' : St σ} {env : EnvId} {x : Name} {v : V} (wf : FramesWF s.frames) (h : Afterwards P s s') (hc : s'.cur = s.cur)
    (hv : Evals P env (.sym x) s (.ok v) s) : ∃ w, Evals P env (.sym x) s' (.ok w) s' := by
  have wf' := afterwards_wf h wf
  rw [evals_step] at hv
  have hv : (if isKeyword x = true then pure (.sym x) else lookupSymbol env x : EM σ V) s = some (.ok v, s) := hv
  have goal : ∀ w, (if isKeyword x = true then pure (.sym x) else lookupSymbol env x : EM σ V) s' = some (.ok w, s') →
      ∃ w, Evals P env (.sym x) s' (.ok w) s' := fun w hw => ⟨w, evals_step.2 hw⟩
  by_cases hk : isKeyword x = true
  · exact goal (.sym x) (by rw [if_pos hk]; rfl)
  · rw [if_neg hk] at hv
    unfold lookupSymbol at hv
    rw [Ev.getSt_bind] at hv
    have hs : ∀ w, envSearch s' env x = some w → ∃ w, Evals P env (.sym x) s' (.ok w) s' := by
      intro w hw
      refine goal w ?_
      rw [if_neg hk]
      unfold lookupSymbol
      rw [Ev.getSt_bind, hw]
      rfl
    suffices hne : envSearch s' env x ≠ Option.none by
      cases hw : envSearch s' env x with
      | none => exact absurd hw hne
      | some w => exact hs w hw
    intro hno
    have hsome : envSearch s env x ≠ Option.none := by
      intro h0
      rw [h0] at hv
      cases hv
    apply hsome
    obtain ⟨k, hr⟩ := afterwards_mods h
    unfold envSearch at hno ⊢
    cases hl : lookChain s'.frames env x with
    | some w => rw [hl] at hno; cases hno
    | none =>
      rw [hl] at hno
      have hl0 : lookChain s.frames env x = Option.none := by
        rw [lookChain_none wf]
        intro i w hb
        obtain ⟨j, w', hb'⟩ := binds_afterwards h hb
        exact (lookChain_none wf').1 hl j w' hb'
      rw [hl0]
      simp only at hno ⊢
      have hmod : ∀ m, searchModule s'.mods s'.root m x = Option.none → searchModule s.mods s.root m x = Option.none := by
        intro m hm
        rw [searchModule_eq, moduleValue_none] at hm ⊢
        rw [hr] at hm
        exact noBinding_kept k hm
      cases hcv : chainValue s' env x with
      | some w => rw [hcv] at hno; cases hno
      | none =>
        rw [hcv] at hno
        have hcv0 : chainValue s env x = Option.none := by
          unfold chainValue at hcv ⊢
          cases hcm : chainModule s.frames (env + 1) env with
          | none => rfl
          | some m =>
            have h1 := (chainModule_iff wf (env + 1) (Nat.lt_succ_self _)).1 hcm
            have h2 := (chainModule_iff wf' (env + 1) (Nat.lt_succ_self _)).2 (moduleOf_afterwards h h1)
            rw [h2] at hcv
            exact hmod m hcv
        rw [hcv0]
        simp only at hno ⊢
        rw [hc] at hno
        cases hcur : searchModule s'.mods s'.root s.cur x with
        | some w => rw [hcur] at hno; cases hno
        | none =>
          rw [hcur] at hno
          rw [hmod _ hcur]
          simp only at hno ⊢
          by_cases he : env ≠ 0
          · rw [if_pos he] at hno ⊢
            unfold lookOwn at hno ⊢
            cases hf : s.frames[0]? with
            | none => rfl
            | some f =>
              obtain ⟨f', h1, _, _, h4⟩ := afterwards_ext h 0 f hf
              rw [h1] at hno
              cases hfe : findEntry x f.entries with
              | none => exact hfe
              | some w =>
                have := h4 x (by unfold hasEntry; rw [hfe]; rfl)
                unfold hasEntry at this
                simp only at hno
                rw [hno] at this
                cases this
          · rw [if_neg he]

/-- The hypotheses are met: `x` is defined, then redefined. -/
example : ∃ s1 s2, Afterwards Demo.prims Demo.s0 s1 ∧ (∃ u v, FirstBinding s1.mods s1.root 0 "x" u v) ∧ Afterwards Demo.prims s1 s2 ∧ s2.cur = s1.cur ∧
    Evals Demo.prims 0 (.sym "x") s1 (.ok (.num 1)) s1 ∧ Evals Demo.prims 0 (.sym "x") s2 (.ok (.num 2)) s2 := by
  have h1 : Evals Demo.prims 0 (Demo.def' "x" 1) Demo.s0 (.ok .none) (defineSt Demo.s0 0 "x" (.num 1)) := ⟨9, rfl⟩
  have h2 : Evals Demo.prims 0 (Demo.def' "x" 2) (defineSt Demo.s0 0 "x" (.num 1)) (.ok .none) (defineSt (defineSt Demo.s0 0 "x" (.num 1)) 0 "x" (.num 2)) :=
    ⟨9, rfl⟩
  exact ⟨_, _, .step .refl h1, ⟨0, .num 1, [], [0], rfl, by decide, by simp⟩, .step .refl h2, rfl, ⟨3, rfl⟩, ⟨3, rfl⟩⟩

/-! ## C93: requests for modules -/

/-- C93: `(resolve-module name)` is a request for the module. -/
theorem c93_resolve {env : EnvId} {e : V} {xs : List Name} {s s1 s' : St σ} (hx : xs ≠ []) (h0 : ∃ g, s1.frames[0]? = some g)
    (he : Evals P env e s (.ok (nameOf xs)) s1) :
    (∀ m, Resolves P xs s1 (.ok m) s' → Evals P env (listOf [.func "resolve-module" 1, e]) s (.ok (.modl m)) s') ∧
    (∀ t, Resolves P xs s1 (.stop t) s' → Evals P env (listOf [.func "resolve-module" 1, e]) s (.stop t) s') := by
  obtain ⟨g, hg⟩ := h0
  obtain ⟨a, d, hp⟩ := nameOf_pair hx
  have key : ∀ o, Evals P env (listOf [.func "resolve-module" 1, e]) s o s' ↔
      (resolveModule P (run P) (nameOf xs) >>= fun m => pure (V.modl m)) s1 = some (o, s') := fun o => by
    rw [evals_call1 (by decide) he, hp]
    have : callPrim P (run P) "resolve-module" [.pair a d] s1 =
        (resolveModule P (run P) (.pair a d) >>= fun m => pure (V.modl m)) s1 := by
      show modPrim P (run P) "resolve-module" [.pair a d] s1 = _
      unfold modPrim
      rw [Ev.getSt_bind]
      rfl
    rw [this]
  constructor
  · intro m h
    rw [key, bind_apply, resolves_sound hg h]
    rfl
  · intro t h
    rw [key, bind_apply, resolves_sound hg h]

def useOut : Out Unit → Out V
  | .ok _ => .ok .none
  | .stop t => .stop t

theorem useModules_imports {m : Nat} {ns : List (List Name)} {s s' : St σ} {o : Out Unit} (hx : ∀ n ∈ ns, n ≠ []) (h0 : ∃ g, s.frames[0]? = some g)
    (h : ImportsAll P m ns s o s') :
    useModules P (run P) m (ns.map nameOf) s = some (useOut o, s') := by
  induction h with
  | nil => rfl
  | @cons n ns s u s1 o s' hr _ ih =>
    obtain ⟨a, d, hp⟩ := nameOf_pair (hx n (.head _))
    obtain ⟨g, hg⟩ := h0
    rw [List.map_cons, hp]
    unfold useModules
    rw [← hp, bind_apply, resolves_sound hg hr]
    simp only
    rw [Ev.modSt_bind, useModule_eq]
    exact ih (fun n hn => hx n (.tail _ hn)) (hr.global ⟨g, hg⟩)
  | @fail n ns s t s' hr =>
    obtain ⟨a, d, hp⟩ := nameOf_pair (hx n (.head _))
    obtain ⟨g, hg⟩ := h0
    rw [List.map_cons, hp]
    unfold useModules
    rw [← hp, bind_apply, resolves_sound hg hr]
    rfl

/-- C93: `(use-modules name ...)` requests the modules in order and puts each in front of the imports of the module that was the current one at the
beginning. -/
theorem c93_use {env : EnvId} {ns : List (List Name)} {s s' : St σ} (hnm : NoMacro s "use-modules") (hx : ∀ n ∈ ns, n ≠ [])
    (h0 : ∃ g, s.frames[0]? = some g) :
    (ImportsAll P s.cur ns s (.ok ()) s' → Evals P env (listOf (.sym "use-modules" :: ns.map nameOf)) s (.ok .none) s') ∧
    (∀ t, ImportsAll P s.cur ns s (.stop t) s' → Evals P env (listOf (.sym "use-modules" :: ns.map nameOf)) s (.stop t) s') := by
  have key : ∀ o, useModules P (run P) s.cur (ns.map nameOf) s = some (o, s') →
      Evals P env (listOf (.sym "use-modules" :: ns.map nameOf)) s o s' := by
    intro o ho
    show Evals P env (.pair (.sym "use-modules") (listOf (ns.map nameOf))) s o s'
    rw [evals_form (f := .useModules) hnm (by decide)]
    show (EM.getSt >>= fun s => useModules P (run P) s.cur (nodes (listOf (ns.map nameOf)))) s = _
    rw [Ev.getSt_bind, nodes_listOf]
    exact ho
  exact ⟨fun h => key _ (useModules_imports hx h0 h), fun t h => key _ (useModules_imports hx h0 h)⟩

/-- C93: a request that returns leaves the current module as it was. -/
theorem c93_current {xs : List Name} {s s' : St σ} {m : Nat} (h : Resolves P xs s (.ok m) s') : s'.cur = s.cur := by
  cases h <;> rfl

/-- C93 fails for a request that does not return: after the error the half-loaded module is the current module, so later definitions go there.
`m.scm` holds `(throw 'oops)`; after the error was caught, `(current-module)` is `m`. -/
theorem c93_counterexample : ∃ s', Evals (Demo.world [("m.scm", .exprs [Ev.Demo.l [.sym "throw", quoted (.sym "oops")]])]) 0
      (Demo.prog [Ev.Demo.l [.sym "catch", .bool true, Ev.Demo.l [.sym "lambda", .nil, Demo.use "m"], Ev.Demo.l [.sym "lambda", .sym "r", .num 0]],
        Ev.Demo.l [.func "current-module" 0]]) Demo.s0 (.ok (.modl 1)) s' :=
  Demo.evals_in 40 (by decide +kernel)

/-- C93 fails for definitions inside procedures of a module file: an internal definition is a definition of the module.
`m.scm` holds `(define (f) (define t 5) t)`; after `(f)` the variable `t` is bound in the importing program. -/
theorem c93_internal_counterexample : ∃ s', Evals (Demo.world [("m.scm", .exprs [Ev.Demo.l [.sym "define", Ev.Demo.l [.sym "f"], Demo.def' "t" 5, .sym "t"]])]) 0
      (Demo.prog [Demo.use "m", Ev.Demo.l [.sym "f"], .sym "t"]) Demo.s0 (.ok (.num 5)) s' :=
  Demo.evals_in 40 (by decide +kernel)

open Demo in
/-- A module found through the second directory of `%load-path`; its exported variable is visible. -/
example : ∃ s', Evals (world [("lib/a/b.scm", .exprs [def' "z" 3, exp "z"]), ("a/b.scm", .exprs [def' "z" 4, exp "z"])]) 0
    (prog [Ev.Demo.l [.sym "define", .sym "%load-path", quoted (listOf [.str "nowhere", .str "lib/"])],
      Ev.Demo.l [.sym "use-modules", listOf [.sym "a", .sym "b"]], .sym "z"]) Demo.s0 (.ok (.num 3)) s' := evals_in 40 (by decide +kernel)

/-- The hypotheses of `c93_resolve` and `c93_use` are met by a module with a file. -/
example : ∃ s', Resolves (Demo.world [("m.scm", .exprs [Demo.def' "z" 3])]) ["m"] Demo.s0 (.ok 1) s' :=
  ⟨_, .loaded (paths := ["m.scm"]) (path := "m.scm") (y := Demo.def' "z" 3) (ys := []) (v := .none) (by decide)
    ⟨[], .inr ⟨by decide, rfl⟩, by decide⟩ ⟨[], [], rfl, by decide, by simp⟩ (by decide) (.last ⟨9, rfl⟩)⟩

/-! ## C94: options of define-module -/

/-- `#:use-module name ... #:export x ...` as read: keywords are plain symbols. -/
def moduleOptions (uses : List (List Name)) (exports : List Name) : List V :=
  uses.flatMap (fun n => [.sym "use-module", nameOf n]) ++ (.sym "export" :: exports.map V.sym)

theorem modOpts_exports (xs : List Name) : modOpts true (xs.map V.sym) = xs.map ModOpt.export := by
  induction xs with
  | nil => rfl
  | cons x xs ih => simp only [List.map_cons, modOpts, ih]

theorem modOpts_options (uses : List (List Name)) (exports : List Name) (hx : ∀ n ∈ uses, n ≠ []) :
    modOpts false (moduleOptions uses exports) = uses.map (fun n => ModOpt.use (nameOf n)) ++ exports.map ModOpt.export := by
  induction uses with
  | nil =>
    show modOpts false (.sym "export" :: exports.map V.sym) = _
    have : modOpts false (.sym "export" :: exports.map V.sym) = modOpts true (exports.map V.sym) := by
      unfold modOpts
      simp only [show ("export" = "use-module") = False by simp, if_false, if_true]
      cases exports <;> simp [modOpts]
    rw [this, modOpts_exports]
    rfl
  | cons n ns ih =>
    obtain ⟨a, d, hp⟩ := nameOf_pair (hx n (.head _))
    have h := ih (fun n hn => hx n (.tail _ hn))
    show modOpts false (.sym "use-module" :: nameOf n :: moduleOptions ns exports) = _
    rw [hp, List.map_cons, hp, List.cons_append, ← h]
    simp [modOpts]

theorem runOpts_exports {m : Nat} (xs : List Name) (s : St σ) :
    runOpts P (run P) m (xs.map ModOpt.export) s = some (.ok (), { s with mods := exportAll s.mods s.root m (xs.map V.sym) }) := by
  induction xs generalizing s with
  | nil => rfl
  | cons x xs ih =>
    simp only [List.map_cons, runOpts, exportAll]
    rw [Ev.modSt_bind, ih]

theorem runOpts_uses {m c : Nat} (ns : List V) (os : List ModOpt) (s s' : St σ) (hp : ∀ n ∈ ns, ∃ a d, n = .pair a d)
    (h : useModules P (run P) m ns { s with cur := c } = some (.ok .none, s')) :
    s'.cur = c ∧ runOpts P (run P) m (ns.map ModOpt.use ++ os) s = runOpts P (run P) m os { s' with cur := s.cur } := by
  induction ns generalizing s with
  | nil =>
    cases h
    exact ⟨rfl, rfl⟩
  | cons n ns ih =>
    obtain ⟨a, d, rfl⟩ := hp n (.head _)
    unfold useModules at h
    rw [bind_eq_some] at h
    rcases h with ⟨u, s1, h1, h2⟩ | ⟨e, _, h2⟩
    · obtain ⟨hc, hr⟩ := resolveModule_cur h1
      rw [Ev.modSt_bind] at h2
      have h3 := ih { s1 with mods := useModule s1.mods m u, cur := s.cur } (fun n hn => hp n (.tail _ hn)) (by
        rw [← h2, ← hc])
      refine ⟨h3.1, ?_⟩
      simp only [List.map_cons, List.cons_append, runOpts]
      rw [bind_apply, hr]
      simp only
      rw [Ev.modSt_bind]
      exact h3.2
    · cases h2

/-- C94: `(define-module name #:use-module u ... #:export x ...)` does what `(define-module name)`, `(use-modules u ...)` and `(export x ...)` do one
after the other.  Partial: imports before exports (see the counterexamples), and requests that return. -/
theorem c94_options_partial {env : EnvId} {n : List Name} {uses : List (List Name)} {exports : List Name} {s s1 s2 s3 : St σ}
    (hn : n ≠ []) (hx : ∀ u ∈ uses, u ≠ []) (hnm : NoMacro s "define-module") (hnm1 : NoMacro s1 "use-modules") (hnm2 : NoMacro s2 "export")
    (h1 : Evals P env (listOf [.sym "define-module", nameOf n]) s (.ok .none) s1)
    (h2 : Evals P env (listOf (.sym "use-modules" :: uses.map nameOf)) s1 (.ok .none) s2)
    (h3 : Evals P env (listOf (.sym "export" :: exports.map V.sym)) s2 (.ok .none) s3) :
    Evals P env (listOf (.sym "define-module" :: nameOf n :: moduleOptions uses exports)) s (.ok .none) s3 := by
  rw [evals_iff] at h1 ⊢
  have h1 : run P (.eval env (.pair (.sym "define-module") (.pair (nameOf n) .nil))) s = _ := h1
  show run P (.eval env (.pair (.sym "define-module") (.pair (nameOf n) (listOf (moduleOptions uses exports))))) s = _
  rw [defineModule_run hn hnm] at h1 ⊢
  rw [nodes_listOf, modOpts_options uses exports hx]
  rw [bind_eq_some] at h1
  rcases h1 with ⟨m, t, hr, h1⟩ | ⟨e, _, h1⟩
  rotate_left
  · cases h1
  rw [bind_apply, hr]
  have h1 : some (Out.ok V.none, { t with cur := m }) = some (Out.ok V.none, s1) := h1
  cases h1
  have h2 : Evals P env (.pair (.sym "use-modules") (listOf (uses.map nameOf))) { t with cur := m } (.ok .none) s2 := h2
  rw [evals_form (f := .useModules) hnm1 (by decide)] at h2
  have h2 : useModules P (run P) m (nodes (listOf (uses.map nameOf))) { t with cur := m } = some (.ok .none, s2) := h2
  rw [nodes_listOf] at h2
  obtain ⟨hc, hu⟩ := runOpts_uses (uses.map nameOf) (exports.map ModOpt.export) t s2 (fun v hv => by
    obtain ⟨u, hu, rfl⟩ := List.mem_map.1 hv
    exact nameOf_pair (hx u hu)) h2
  have h3 : Evals P env (.pair (.sym "export") (listOf (exports.map V.sym))) s2 (.ok .none) s3 := h3
  rw [evals_form (f := .export) hnm2 (by decide)] at h3
  have h3 : some (Out.ok V.none, { s2 with mods := exportAll s2.mods s2.root s2.cur (nodes (listOf (exports.map V.sym))) }) =
    some (Out.ok V.none, s3) := h3
  rw [nodes_listOf] at h3
  cases h3
  simp only
  rw [bind_apply]
  have hu' : runOpts P (run P) m (uses.map (fun n => ModOpt.use (nameOf n)) ++ exports.map ModOpt.export) t =
      runOpts P (run P) m (exports.map ModOpt.export) { s2 with cur := t.cur } := by
    rw [← hu, List.map_map]
    rfl
  rw [hu', runOpts_exports]
  subst hc
  rfl

/-- C94 fails when an import follows an export: `(define-module (a) #:export x #:use-module (m))` imports nothing -- the variable `z` of `m` is
unbound. -/
theorem c94_counterexample_order :
    (∃ s', Evals (Demo.world []) 0 (Demo.prog [Demo.mod "m", Demo.def' "z" 1, Demo.mod "b",
      listOf (.sym "define-module" :: nameOf ["a"] :: [.sym "export", .sym "x", .sym "use-module", nameOf ["m"]]), .sym "z"]) Demo.s0
      (.stop (.err Option.none "error" (listOf [.str "symbol not found"]))) s') ∧
    (∃ s', Evals (Demo.world []) 0 (Demo.prog [Demo.mod "m", Demo.def' "z" 1, Demo.mod "b",
      listOf (.sym "define-module" :: nameOf ["a"] :: [.sym "use-module", nameOf ["m"], .sym "export", .sym "x"]), .sym "z"]) Demo.s0
      (.ok (.num 1)) s') :=
  ⟨Demo.evals_in 40 (by decide +kernel), Demo.evals_in 40 (by decide +kernel)⟩

/-- C94 fails for the usual syntax `#:export (x y)`: the list is ignored, and a module that exports nothing shows everything -- here `b` sees the
unexported `y` of `a`; with `#:export x` it does not. -/
theorem c94_counterexample_list :
    (∃ s', Evals (Demo.world []) 0 (Demo.prog [
      listOf (.sym "define-module" :: nameOf ["a"] :: [.sym "export", listOf [.sym "x"]]), Demo.def' "x" 1, Demo.def' "y" 2,
      Demo.mod "b", Demo.use "a", .sym "y"]) Demo.s0 (.ok (.num 2)) s') ∧
    (∃ s', Evals (Demo.world []) 0 (Demo.prog [
      listOf (.sym "define-module" :: nameOf ["a"] :: [.sym "export", .sym "x"]), Demo.def' "x" 1, Demo.def' "y" 2,
      Demo.mod "b", Demo.use "a", .sym "y"]) Demo.s0 (.stop (.err Option.none "error" (listOf [.str "symbol not found"]))) s') :=
  ⟨Demo.evals_in 40 (by decide +kernel), Demo.evals_in 40 (by decide +kernel)⟩

/-- The hypotheses of `c94_options_partial` are met: two imports, one of them from a file, and an export. -/
example : ∃ s1 s2 s3, Evals (Demo.world [("m.scm", .exprs [Demo.def' "z" 3])]) 0 (listOf [.sym "define-module", nameOf ["a"]]) Demo.s0 (.ok .none) s1 ∧
    Evals (Demo.world [("m.scm", .exprs [Demo.def' "z" 3])]) 0 (listOf (.sym "use-modules" :: [["m"], ["k"]].map nameOf)) s1 (.ok .none) s2 ∧
    Evals (Demo.world [("m.scm", .exprs [Demo.def' "z" 3])]) 0 (listOf (.sym "export" :: ["x"].map V.sym)) s2 (.ok .none) s3 :=
  ⟨_, _, _, ⟨9, rfl⟩, ⟨12, rfl⟩, ⟨9, rfl⟩⟩

/-! ## C91, C93: the current module as a value -/

/-- C93: `(set-current-module m)` makes `m` the current module, changes nothing else, and returns the module that was current. -/
theorem c93_set_current {env : EnvId} {e : V} {m : Nat} {s s1 s' : St σ} {o : Out V} (he : Evals P env e s (.ok (.modl m)) s1) :
    Evals P env (listOf [.func "set-current-module" 1, e]) s o s' ↔ o = .ok (.modl s1.cur) ∧ s' = { s1 with cur := m } := by
  rw [evals_call1 (by decide) he]
  have : callPrim P (run P) "set-current-module" [.modl m] s1 = some (.ok (.modl s1.cur), { s1 with cur := m }) := by
    show modPrim P (run P) "set-current-module" [.modl m] s1 = _
    unfold modPrim
    rw [Ev.getSt_bind]
    rfl
  rw [this]
  constructor
  · intro h; cases h; exact ⟨rfl, rfl⟩
  · rintro ⟨rfl, rfl⟩; rfl

/-- C93: `(current-module)` returns the current module, and nothing changes. -/
theorem c93_current_module {env : EnvId} {s s' : St σ} {o : Out V} :
    Evals P env (listOf [.func "current-module" 0]) s o s' ↔ o = .ok (.modl s.cur) ∧ s' = s := by
  show Evals P env (.pair (.func "current-module" 0) (listOf [])) s o s' ↔ _
  rw [evals_callPrim (a := 0) (vs := []) (s1 := s) (by decide) (.inr ⟨rfl, .inl rfl⟩) .nil]
  have : callPrim P (run P) "current-module" [] s = some (.ok (.modl s.cur), s) := by
    show modPrim P (run P) "current-module" [] s = _
    unfold modPrim
    rw [Ev.getSt_bind]
    rfl
  rw [this]
  constructor
  · intro h; cases h; exact ⟨rfl, rfl⟩
  · rintro ⟨rfl, rfl⟩; rfl

/-- C93: `(module? x)` tells whether `x` is a module. -/
theorem c93_module_p {env : EnvId} {e v : V} {s s1 s' : St σ} {o : Out V} (he : Evals P env e s (.ok v) s1) :
    Evals P env (listOf [.func "module?" 1, e]) s o s' ↔ (o = .ok (.bool true) ∧ (∃ m, v = .modl m) ∨ o = .ok (.bool false) ∧ ∀ m, v ≠ .modl m) ∧ s' = s1 := by
  rw [evals_call1 (by decide) he]
  have h0 : callPrim P (run P) "module?" [v] s1 = modPrim P (run P) "module?" [v] s1 := rfl
  rw [h0]
  unfold modPrim
  rw [Ev.getSt_bind]
  cases v <;> simp [pure_apply, eq_comm, and_comm]

/-- `(begin (define-module (a)) (define r (resolve-module (root))) (set-current-module r))`-like round trip: hypotheses met, and back again. -/
example : ∃ s', Evals (Demo.world []) 0 (Demo.prog [Demo.mod "a", Ev.Demo.l [.func "set-current-module" 1, .modl 0], Ev.Demo.l [.func "current-module" 0]])
    Demo.s0 (.ok (.modl 0)) s' := Demo.evals_in 40 (by decide +kernel)

end Pscm
