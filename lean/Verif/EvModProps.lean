import Verif.EvLemmas
import Verif.EvApply
import Verif.EvEnvProps
/-!
# C70 – C73: modules

A module variable `x` of module `m` is looked for in the modules `searchOrder ms root m` (`m`, its imports from the newest to the oldest, the
root module); `ownValue ms x u` is the binding of `x` in `u` itself.
-/
namespace Pscm
open Ev
variable {σ : Type} {P : Prims σ}

/-- A call of one of the module builtins. -/
theorem evals_modPrim {env : EnvId} {n : Name} {a : Int} {es vs : List V} {s s1 s' : St σ} {o : Out V}
    (hn : isModPrim n = true) (ha : a = -2 ∨ a = vs.length ∧ (a = 0 ∨ a = 1 ∨ a = 2 ∨ a = 3))
    (h : ArgsEval (Evals P) env es s (.ok vs) s1) (hp : modPrim P (run P) n vs s1 = some (o, s')) :
    Evals P env (.pair (.func n a) (listOf es)) s o s' := by
  have hn' : n = "current-module" ∨ n = "set-current-module" ∨ n = "module-ref" ∨ n = "module-bound?" ∨ n = "module-use!" ∨
      n = "resolve-module" ∨ n = "module?" ∨ n = "defined?" := by
    simpa [isModPrim, or_assoc] using hn
  have hs : n ≠ "apply" ∧ ¬ (n = "map" ∨ n = "map-in-order") ∧ isCallCC n ≠ true ∧ isEvalOnly n = false ∧
      ¬ (n = "call/cc" ∨ n = "call-with-current-continuation") := by
    rcases hn' with rfl | rfl | rfl | rfl | rfl | rfl | rfl | rfl <;> decide
  have hc : ∀ rec : Rec σ, callPrim P rec n vs = modPrim P rec n vs := by
    intro rec
    unfold callPrim
    rcases hn' with rfl | rfl | rfl | rfl | rfl | rfl | rfl | rfl <;> simp [hn]
  rw [evals_step]
  show evalFuncCall P (run P) env n a (listOf es) s = _
  unfold evalFuncCall
  rw [if_neg hs.1, if_neg hs.2.1, if_neg hs.2.2.1, bind_apply, nodes_listOf, evalArgs_iff.2 h]
  show callFunc P (run P) n a vs s1 = _
  unfold callFunc
  rcases ha with rfl | ⟨h1, h2⟩
  · simp only [hs.2.2.2.1, hs.2.2.2.2]
    simpa [hc] using hp
  · rw [if_pos h2, if_pos h1.symm, hc, hp]

/-- A registered module is found, and nothing else happens. -/
theorem resolveModule_known {name : V} {s : St σ} {m : Nat} (h : findByName s.mods name = some m) :
    resolveModule P (run P) name s = some (.ok m, s) := by
  unfold resolveModule
  simp only [bind_apply, getSt_apply, registerModule, h, Option.isSome_some, if_true, pure_apply]

/-! ## C70 -/

/-- `u` is the first module of the search order of `m` that binds `x`, and it binds it to `v`. -/
def FirstBinding (ms : List Modl) (root m : Nat) (x : Name) (u : Nat) (v : V) : Prop :=
  ∃ before after, searchOrder ms root m = before ++ u :: after ∧ ownValue ms x u = some v ∧ ∀ p ∈ before, ownValue ms x p = Option.none

/-- No module of the search order binds `x`. -/
def NoBinding (ms : List Modl) (root m : Nat) (x : Name) : Prop := ∀ u ∈ searchOrder ms root m, ownValue ms x u = Option.none

theorem moduleValue_some {ms : List Modl} {root m : Nat} {x : Name} {v : V} :
    moduleValue ms root m x = some v ↔ ∃ u, FirstBinding ms root m x u v := by
  unfold moduleValue FirstBinding
  rw [List.findSome?_eq_some_iff]
  constructor
  · rintro ⟨a, u, b, h⟩; exact ⟨u, a, b, h⟩
  · rintro ⟨u, a, b, h⟩; exact ⟨a, u, b, h⟩

theorem moduleValue_none {ms : List Modl} {root m : Nat} {x : Name} :
    moduleValue ms root m x = Option.none ↔ NoBinding ms root m x := by
  unfold moduleValue NoBinding
  rw [List.findSome?_eq_none_iff]

/-- `(module-ref m 'x)` gives the first binding along the search order, the default if there is none, and an error without a default. -/
theorem c70_module_ref {env : EnvId} {es : List V} {s s1 : St σ} {m : Nat} {x : Name} {dflt : List V} (hx : x ≠ "%module-public-interface")
    (h : ArgsEval (Evals P) env es s (.ok (.modl m :: .sym x :: dflt)) s1) :
    (∀ u v, FirstBinding s1.mods s1.root m x u v → Evals P env (.pair (.func "module-ref" (-2)) (listOf es)) s (.ok v) s1) ∧
    (NoBinding s1.mods s1.root m x →
      (∀ d ds, dflt = d :: ds → Evals P env (.pair (.func "module-ref" (-2)) (listOf es)) s (.ok d) s1) ∧
      (dflt = [] → Evals P env (.pair (.func "module-ref" (-2)) (listOf es)) s
        (.stop (throwStop s1 "error" (.pair (.str "module-ref: symbol not found in module") .nil))) s1)) := by
  have key : ∀ o, modPrim P (run P) "module-ref" (.modl m :: .sym x :: dflt) s1 = some (o, s1) →
      Evals P env (.pair (.func "module-ref" (-2)) (listOf es)) s o s1 := fun o ho =>
    evals_modPrim (by decide) (.inl rfl) h ho
  have he : modPrim P (run P) "module-ref" (.modl m :: .sym x :: dflt) s1 =
      (match moduleValue s1.mods s1.root m x with
      | some v => pure v
      | Option.none => match dflt with
        | d :: _ => pure d
        | [] => evalError "module-ref: symbol not found in module" : EM σ V) s1 := by
    unfold modPrim
    rw [getSt_bind]
    simp only [hx, if_false, searchModule_eq]
    cases moduleValue s1.mods s1.root m x with
    | some v => rfl
    | none => cases dflt <;> rfl
  refine ⟨fun u v hu => key _ ?_, fun hnb => ⟨?_, ?_⟩⟩
  · rw [he, moduleValue_some.2 ⟨u, hu⟩]
    rfl
  · rintro d ds rfl
    refine key _ ?_
    rw [he, moduleValue_none.2 hnb]
    rfl
  · rintro rfl
    refine key _ ?_
    rw [he, moduleValue_none.2 hnb]
    rfl

/-- A variable that no frame binds, in code of module `m`: the same search. -/
theorem c70_variable {env : EnvId} {x : Name} {s : St σ} {m u : Nat} {v : V} (wf : FramesWF s.frames) (hk : isKeyword x = false)
    (hx : Unbound s.frames x env) (hm : ModuleOf s.frames env m) (hu : FirstBinding s.mods s.root m x u v) :
    Evals P env (.sym x) s (.ok v) s :=
  ((c38_reference P env x s wf hk).2 hx).1 m v hm (moduleValue_some.2 ⟨u, hu⟩)

/-- In code that belongs to no module, the current module is searched. -/
theorem c70_current {env : EnvId} {x : Name} {s : St σ} {u : Nat} {v : V} (wf : FramesWF s.frames) (hk : isKeyword x = false)
    (hx : Unbound s.frames x env) (hm : ∀ m, ¬ ModuleOf s.frames env m) (hu : FirstBinding s.mods s.root s.cur x u v) :
    Evals P env (.sym x) s (.ok v) s :=
  (((c38_reference P env x s wf hk).2 hx).2 fun m h => absurd h (hm m)).1 v (moduleValue_some.2 ⟨u, hu⟩)

/-- `(use-modules name)` puts the interface of the module in front of the other imports of the current module: later imports are searched
first.  The interface of a module that has exported nothing is the module itself. -/
theorem c70_use {env : EnvId} {a d : V} {s : St σ} {u : Nat} {md : Modl} (hnm : NoMacro s "use-modules")
    (hu : findByName s.mods (.pair a d) = some u) (hc : s.mods[s.cur]? = some md) :
    ∃ s', Evals P env (listOf [.sym "use-modules", .pair a d]) s (.ok .none) s' ∧
      searchOrder s'.mods s'.root s'.cur = s.cur :: ((s.mods[u]?.bind Modl.pub).getD u :: md.uses) ++ [s.root] ∧
      (∀ z w, ownValue s'.mods z w = ownValue s.mods z w) ∧
      ∀ m, m ≠ s.cur → searchOrder s'.mods s'.root m = searchOrder s.mods s.root m := by
  refine ⟨{ s with mods := useModule s.mods s.cur u }, ?_, ?_, ?_, ?_⟩
  · show Evals P env (.pair (.sym "use-modules") (.pair (.pair a d) .nil)) s _ _
    rw [evals_form (f := .useModules) hnm (by decide)]
    show (EM.getSt >>= fun s => useModules P (run P) s.cur (nodes (.pair (.pair a d) .nil))) s = _
    rw [getSt_bind]
    show useModules P (run P) s.cur [.pair a d] s = _
    simp only [useModules, bind_apply, resolveModule_known hu, modSt_apply, pure_apply]
  all_goals
    have hset : useModule s.mods s.cur u = s.mods.set s.cur { md with uses := ifaceOf s.mods u :: md.uses } := by
      unfold useModule
      rw [hc]
    have hlt : s.cur < s.mods.length := (List.getElem?_eq_some_iff.1 hc).1
  · have hi : ifaceOf s.mods u = (s.mods[u]?.bind Modl.pub).getD u := by
      unfold ifaceOf
      cases s.mods[u]? <;> rfl
    unfold searchOrder
    show (match (useModule s.mods s.cur u)[s.cur]? with
      | some md => s.cur :: md.uses ++ [s.root]
      | Option.none => []) = _
    rw [hset, List.getElem?_set_self hlt, ← hi]
  · intro z w
    unfold ownValue
    show ((useModule s.mods s.cur u)[w]?.bind _) = _
    rw [hset]
    by_cases hw : w = s.cur
    · subst hw
      rw [List.getElem?_set_self hlt, hc]
      rfl
    · rw [List.getElem?_set_ne (Ne.symm hw)]
  · intro m hm
    unfold searchOrder
    show (match (useModule s.mods s.cur u)[m]? with
      | some md => m :: md.uses ++ [s.root]
      | Option.none => []) = _
    rw [hset, List.getElem?_set_ne (Ne.symm hm)]
    rfl

/-- `(module-use! m u)`, with a module or the name of one, puts the interface of `u` in front of the other imports of `m`, and of no other module. -/
theorem c70_module_use {env : EnvId} {es : List V} {s s1 : St σ} {m u : Nat} {w : V} {md : Modl} (h : ArgsEval (Evals P) env es s (.ok [.modl m, w]) s1)
    (hw : w = .modl u ∨ ∃ a d, w = .pair a d ∧ findByName s1.mods (.pair a d) = some u) (hc : s1.mods[m]? = some md) :
    ∃ s', Evals P env (.pair (.func "module-use!" (-2)) (listOf es)) s (.ok .none) s' ∧
      searchOrder s'.mods s'.root m = m :: ((s1.mods[u]?.bind Modl.pub).getD u :: md.uses) ++ [s1.root] ∧
      (∀ z k, ownValue s'.mods z k = ownValue s1.mods z k) ∧
      ∀ k, k ≠ m → searchOrder s'.mods s'.root k = searchOrder s1.mods s1.root k := by
  refine ⟨{ s1 with mods := useModule s1.mods m u }, evals_modPrim (by decide) (.inl rfl) h ?_, ?_, ?_, ?_⟩
  · rcases hw with rfl | ⟨a, d, rfl, hu⟩
    · rfl
    · unfold modPrim
      simp only [bind_apply, getSt_apply, resolveModule_known hu, modSt_apply, pure_apply]
  all_goals
    have hset : useModule s1.mods m u = s1.mods.set m { md with uses := ifaceOf s1.mods u :: md.uses } := by
      unfold useModule
      rw [hc]
    have hlt : m < s1.mods.length := (List.getElem?_eq_some_iff.1 hc).1
  · have hi : ifaceOf s1.mods u = (s1.mods[u]?.bind Modl.pub).getD u := by
      unfold ifaceOf
      cases s1.mods[u]? <;> rfl
    unfold searchOrder
    show (match (useModule s1.mods m u)[m]? with
      | some md => m :: md.uses ++ [s1.root]
      | Option.none => []) = _
    rw [hset, List.getElem?_set_self hlt, ← hi]
  · intro z k
    unfold ownValue
    show ((useModule s1.mods m u)[k]?.bind _) = _
    rw [hset]
    by_cases hk : k = m
    · subst hk
      rw [List.getElem?_set_self hlt, hc]
      rfl
    · rw [List.getElem?_set_ne (Ne.symm hk)]
  · intro k hk
    unfold searchOrder
    show (match (useModule s1.mods m u)[k]? with
      | some md => k :: md.uses ++ [s1.root]
      | Option.none => []) = _
    rw [hset, List.getElem?_set_ne (Ne.symm hk)]
    rfl

/-! ## C71 -/

/-- The interface of a module (or the module of an interface), and the names the module has exported. -/
def partner (ms : List Modl) (m : Nat) : Option Nat := ms[m]?.bind Modl.pub
def exported (ms : List Modl) (m : Nat) : List Name := (ms[m]?.map Modl.exports).getD []

/-- An ordinary module, not the interface of one.  (Interfaces are younger than their module.) -/
def Ordinary (ms : List Modl) (m : Nat) : Prop := m < ms.length ∧ ∀ i, partner ms m = some i → m < i

/-- The operations on modules. -/
inductive ModStep (root : Nat) : List Modl → List Modl → Prop
  /-- `define-module` of a new name -/
  | create {ms} (name : V) : ModStep root ms (ms ++ [freshModule name])
  /-- `define`, `scm_module_define` -/
  | define {ms} (m : Nat) (x : Name) (v : V) : Ordinary ms m → ModStep root ms (obSet ms m x v)
  /-- `set!` in code of module `m`: the binding that `m` sees is changed -/
  | assign {ms} (m u : Nat) (x : Name) (v w : V) : FirstBinding ms root m x u w → ModStep root ms (obSet ms u x v)
  /-- `export`, `re-export`, `define-public` -/
  | export {ms} (m : Nat) (x : Name) : Ordinary ms m → ModStep root ms (exportSym ms root m x)
  /-- `use-modules`, `module-use!` -/
  | use {ms} (m u : Nat) : Ordinary ms u → ModStep root ms (useModule ms m u)

/-- Any number of operations. -/
inductive ModSteps (root : Nat) : List Modl → List Modl → Prop
  | nil {ms} : ModSteps root ms ms
  | snoc {ms ms1 ms2} : ModSteps root ms ms1 → ModStep root ms1 ms2 → ModSteps root ms ms2

/-- A module and its interface point at each other, and the interface holds only exported names. -/
structure IfaceInv (ms : List Modl) : Prop where
  back : ∀ m i, partner ms m = some i → partner ms i = some m
  only : ∀ m i, partner ms m = some i → m < i → ∀ x v, ownValue ms x i = some v → x ∈ exported ms m

theorem partner_lt {ms : List Modl} {m i : Nat} (h : partner ms m = some i) : m < ms.length := by
  unfold partner at h
  cases hm : ms[m]? with
  | none => rw [hm] at h; cases h
  | some md => exact (List.getElem?_eq_some_iff.1 hm).1

/-- `set` of one module. -/
theorem getElem?_setM (ms : List Modl) (m : Nat) (md : Modl) (hm : m < ms.length) (u : Nat) :
    (ms.set m md)[u]? = if u = m then some md else ms[u]? := by
  by_cases hu : u = m
  · subst hu
    rw [List.getElem?_set_self hm, if_pos rfl]
  · rw [List.getElem?_set_ne (Ne.symm hu), if_neg hu]

theorem obSet_get (ms : List Modl) (m : Nat) (x : Name) (v : V) (u : Nat) :
    partner (obSet ms m x v) u = partner ms u ∧ exported (obSet ms m x v) u = exported ms u := by
  unfold obSet
  cases hm : ms[m]? with
  | none => exact ⟨rfl, rfl⟩
  | some md =>
    have hlt : m < ms.length := (List.getElem?_eq_some_iff.1 hm).1
    unfold partner exported
    dsimp only
    rw [getElem?_setM _ _ _ hlt]
    by_cases hu : u = m
    · subst hu; rw [if_pos rfl, hm]; exact ⟨rfl, rfl⟩
    · rw [if_neg hu]; exact ⟨rfl, rfl⟩

theorem useModule_get (ms : List Modl) (m u : Nat) (w : Nat) :
    partner (useModule ms m u) w = partner ms w ∧ exported (useModule ms m u) w = exported ms w ∧
      ∀ x, ownValue (useModule ms m u) x w = ownValue ms x w := by
  unfold useModule
  cases hm : ms[m]? with
  | none => exact ⟨rfl, rfl, fun _ => rfl⟩
  | some md =>
    have hlt : m < ms.length := (List.getElem?_eq_some_iff.1 hm).1
    unfold partner exported ownValue
    dsimp only
    rw [getElem?_setM _ _ _ hlt]
    by_cases hw : w = m
    · subst hw; rw [if_pos rfl, hm]; exact ⟨rfl, rfl, fun _ => rfl⟩
    · rw [if_neg hw]; exact ⟨rfl, rfl, fun _ => rfl⟩

theorem getElem?_snoc (ms : List Modl) (md : Modl) (u : Nat) :
    (ms ++ [md])[u]? = if u = ms.length then some md else ms[u]? := by
  by_cases hu : u = ms.length
  · subst hu; simp
  · rw [if_neg hu]
    by_cases h : u < ms.length
    · rw [List.getElem?_append_left h]
    · rw [List.getElem?_eq_none (by simp; omega), List.getElem?_eq_none (by omega)]

theorem ownValue_obSet' (ms : List Modl) (m : Nat) (x : Name) (v : V) (hm : m < ms.length) (z : Name) (u : Nat) :
    ownValue (obSet ms m x v) z u = if z = x ∧ u = m then some v else ownValue ms z u :=
  ownValue_obSet (List.getElem?_eq_getElem hm) z u

theorem exportsObarray_mem {ob : List (Name × V)} {es : List Name} {x : Name} {v : V} (h : (exportsObarray ob es).lookup x = some v) : x ∈ es := by
  induction es with
  | nil => cases h
  | cons e es ih =>
    unfold exportsObarray at h
    cases hf : findEntry e ob with
    | none => rw [hf] at h; exact List.mem_cons_of_mem _ (ih h)
    | some w =>
      rw [hf] at h
      dsimp only at h
      by_cases hx : x = e
      · simp [hx]
      · rw [lookup_upsert_ne hx] at h
        exact List.mem_cons_of_mem _ (ih h)

theorem exportsObarray_none {ob : List (Name × V)} {es : List Name} {x : Name} (h : ob.lookup x = Option.none) :
    (exportsObarray ob es).lookup x = Option.none := by
  induction es with
  | nil => rfl
  | cons e es ih =>
    unfold exportsObarray
    cases hf : findEntry e ob with
    | none => exact ih
    | some w =>
      dsimp only
      have hx : x ≠ e := by
        rintro rfl
        rw [lookup_eq_findEntry, hf] at h
        cases h
      rw [lookup_upsert_ne hx]
      exact ih

/-- The state between creating the interface and copying the value. -/
structure Mid (ms : List Modl) (root m : Nat) (x : Name) (ms2 : List Modl) (i : Nat) : Prop where
  inv : IfaceInv ms2
  iface : partner ms2 m = some i
  lt : m < i
  old : ∀ u j, partner ms u = some j → partner ms2 u = some j
  new : ∀ u, u ≠ m → u < ms.length → partner ms2 u = partner ms u
  len : ms.length ≤ ms2.length
  own : ∀ z u v, ownValue ms z u = some v → ownValue ms2 z u = some v
  has : x ∈ exported ms2 m
  same : moduleValue ms2 root m x = moduleValue ms root m x

theorem export_mid {ms : List Modl} {root m : Nat} {x : Name} (hi : IfaceInv ms) (ho : Ordinary ms m) :
    ∃ ms2 i, Mid ms root m x ms2 i ∧
      exportSym ms root m x = match moduleValue ms2 root m x with
        | some v => obSet ms2 i x v
        | Option.none => ms2 := by
  obtain ⟨hlt, hord⟩ := ho
  have hmd : ms[m]? = some ms[m] := List.getElem?_eq_getElem hlt
  generalize ms[m] = md at hmd
  let md1 : Modl := { md with exports := x :: md.exports }
  let ms1 := ms.set m md1
  have g1 : ∀ u, ms1[u]? = if u = m then some md1 else ms[u]? := getElem?_setM ms m md1 hlt
  have p1 : ∀ u, partner ms1 u = partner ms u := by
    intro u
    unfold partner
    rw [g1]
    by_cases hu : u = m
    · subst hu; rw [if_pos rfl, hmd]; rfl
    · rw [if_neg hu]
  have o1 : ∀ z u, ownValue ms1 z u = ownValue ms z u := by
    intro z u
    unfold ownValue
    rw [g1]
    by_cases hu : u = m
    · subst hu; rw [if_pos rfl, hmd]; rfl
    · rw [if_neg hu]
  have e1 : exported ms1 m = x :: exported ms m := by
    unfold exported
    rw [g1, if_pos rfl, hmd]; rfl
  have e1' : ∀ u, u ≠ m → exported ms1 u = exported ms u := by
    intro u hu
    unfold exported
    rw [g1, if_neg hu]
  have hso1 : searchOrder ms1 root m = searchOrder ms root m := by
    unfold searchOrder
    rw [g1, if_pos rfl, hmd]
  have hmv1 : moduleValue ms1 root m x = moduleValue ms root m x := by
    unfold moduleValue
    rw [hso1]
    congr 1
    funext u
    exact o1 x u
  have hinv1 : IfaceInv ms1 := by
    refine ⟨fun u j h => ?_, fun u j h hu z v hv => ?_⟩
    · rw [p1] at h ⊢; exact hi.back u j h
    · rw [p1] at h
      rw [o1] at hv
      have := hi.only u j h hu z v hv
      by_cases hum : u = m
      · subst hum; rw [e1]; exact List.mem_cons_of_mem _ this
      · rw [e1' u hum]; exact this
  have hlen1 : ms1.length = ms.length := List.length_set ..
  have hm1 : ms1[m]? = some md1 := by rw [g1, if_pos rfl]
  have hexp : exportSym ms root m x = match ensureIface ms1 m with
      | (ms2, some i) =>
        match searchModule ms2 root m x with
        | some v => obSet ms2 i x v
        | Option.none => ms2
      | (ms2, Option.none) => ms2 := by
    unfold exportSym
    rw [hmd]
    dsimp only
    rcases ensureIface ms1 m with ⟨ms2, _ | i⟩
    · rfl
    · dsimp only
      cases searchModule ms2 root m x <;> rfl
  cases hp : md.pub with
  | some i =>
    have hpm : partner ms m = some i := by unfold partner; rw [hmd]; exact hp
    refine ⟨ms1, i, ⟨hinv1, by rw [p1]; exact hpm, hord i hpm, fun u j h => by rw [p1]; exact h, fun u _ _ => p1 u, by omega,
      fun z u v h => by rw [o1]; exact h, by rw [e1]; simp, hmv1⟩, ?_⟩
    rw [hexp]
    have : ensureIface ms1 m = (ms1, some i) := by
      unfold ensureIface
      rw [hm1]
      show (match md.pub with | some i => _ | Option.none => _) = _
      rw [hp]
    rw [this]
    dsimp only
    rw [searchModule_eq]
  | none =>
    let L := ms1.length
    let md2 : Modl := { md1 with pub := some L }
    let ifc : Modl := ⟨md1.name, exportsObarray md1.obarray md1.exports, [], [], some m⟩
    let ms2 := ms1.set m md2 ++ [ifc]
    have hlt1 : m < ms1.length := by omega
    have hLm : m ≠ L := by show m ≠ ms1.length; omega
    have g2 : ∀ u, ms2[u]? = if u = L then some ifc else if u = m then some md2 else ms[u]? := by
      intro u
      show (ms1.set m md2 ++ [ifc])[u]? = _
      rw [getElem?_snoc, List.length_set]
      show (if u = L then _ else _) = _
      by_cases hu : u = L
      · rw [if_pos hu, if_pos hu]
      · rw [if_neg hu, if_neg hu, getElem?_setM _ _ _ hlt1, g1]
        by_cases hum : u = m
        · rw [if_pos hum, if_pos hum]
        · rw [if_neg hum, if_neg hum, if_neg hum]
    have hLms : ms[L]? = Option.none := List.getElem?_eq_none (by show ms.length ≤ ms1.length; omega)
    have pm : partner ms m = Option.none := by unfold partner; rw [hmd]; exact hp
    have p2 : ∀ u, partner ms2 u = if u = L then some m else if u = m then some L else partner ms u := by
      intro u
      unfold partner
      rw [g2]
      split
      · rfl
      · split <;> rfl
    have o2 : ∀ z u, u ≠ L → ownValue ms2 z u = ownValue ms z u := by
      intro z u hu
      unfold ownValue
      rw [g2, if_neg hu]
      split
      · rename_i hum; subst hum; rw [hmd]; rfl
      · rfl
    have o2L : ∀ z v, ownValue ms2 z L = some v → z ∈ md1.exports := by
      intro z v h
      unfold ownValue at h
      rw [g2, if_pos rfl] at h
      exact exportsObarray_mem h
    have e2 : exported ms2 m = md1.exports := by
      unfold exported
      rw [g2, if_neg hLm, if_pos rfl]; rfl
    have e2' : ∀ u, u ≠ m → u ≠ L → exported ms2 u = exported ms u := by
      intro u hu hL
      unfold exported
      rw [g2, if_neg hL, if_neg hu]
    have hso2 : searchOrder ms2 root m = searchOrder ms root m := by
      unfold searchOrder
      rw [g2, if_neg hLm, if_pos rfl, hmd]
    have pL : ∀ u j, partner ms u = some j → j ≠ L ∧ j ≠ m ∧ u ≠ m ∧ u ≠ L := by
      intro u j h
      have hb := hi.back u j h
      have hj := partner_lt hb
      have hu := partner_lt h
      refine ⟨?_, ?_, ?_, ?_⟩
      · show j ≠ ms1.length; omega
      · rintro rfl; rw [pm] at hb; cases hb
      · rintro rfl; rw [pm] at h; cases h
      · show u ≠ ms1.length; omega
    refine ⟨ms2, L, ⟨⟨?_, ?_⟩, ?_, hlt1, ?_, ?_, ?_, ?_, ?_, ?_⟩, ?_⟩
    · intro u j h
      rw [p2] at h
      by_cases hu : u = L
      · rw [if_pos hu] at h
        cases h
        rw [p2, if_neg hLm, if_pos rfl, hu]
      · rw [if_neg hu] at h
        by_cases hum : u = m
        · rw [if_pos hum] at h
          cases h
          rw [p2, if_pos rfl, hum]
        · rw [if_neg hum] at h
          obtain ⟨a1, a2, _, _⟩ := pL u j h
          rw [p2, if_neg a1, if_neg a2]
          exact hi.back u j h
    · intro u j h huj z v hv
      rw [p2] at h
      by_cases hu : u = L
      · rw [if_pos hu] at h
        cases h
        exfalso
        have : m < L := hlt1
        omega
      · rw [if_neg hu] at h
        by_cases hum : u = m
        · rw [if_pos hum] at h
          cases h
          rw [hum, e2]
          exact o2L z v hv
        · rw [if_neg hum] at h
          obtain ⟨a1, a2, _, _⟩ := pL u j h
          rw [o2 z j a1] at hv
          rw [e2' u hum hu]
          exact hi.only u j h huj z v hv
    · rw [p2, if_neg hLm, if_pos rfl]
    · intro u j h
      obtain ⟨_, _, a1, a2⟩ := pL u j h
      rw [p2, if_neg a2, if_neg a1]
      exact h
    · intro u hu hul
      rw [p2, if_neg (by show u ≠ ms1.length; omega), if_neg hu]
    · show ms.length ≤ (ms1.set m md2 ++ [ifc]).length
      rw [List.length_append, List.length_set]
      omega
    · intro z u v h
      have hu : u ≠ L := by
        rintro rfl
        unfold ownValue at h
        rw [hLms] at h
        cases h
      rw [o2 z u hu]
      exact h
    · rw [e2]; simp [md1]
    · unfold moduleValue
      rw [hso2]
      have hhead : ∃ us, searchOrder ms root m = m :: us := by
        unfold searchOrder
        rw [hmd]
        exact ⟨_, rfl⟩
      obtain ⟨us, hus⟩ := hhead
      rw [hus, List.findSome?_cons, List.findSome?_cons, o2 x m hLm]
      cases hx : ownValue ms x m with
      | some v => rfl
      | none =>
        dsimp only
        congr 1
        funext u
        by_cases hu : u = L
        · subst hu
          have h1 : ownValue ms x L = Option.none := by unfold ownValue; rw [hLms]; rfl
          rw [h1]
          unfold ownValue
          rw [g2, if_pos rfl]
          refine exportsObarray_none ?_
          unfold ownValue at hx
          rw [hmd] at hx
          exact hx
        · exact o2 x u hu
    · rw [hexp]
      have : ensureIface ms1 m = (ms2, some L) := by
        unfold ensureIface
        rw [hm1]
        show (match md.pub with | some i => _ | Option.none => _) = _
        rw [hp]
      rw [this]
      dsimp only
      rw [searchModule_eq]

/-- What `export` does: module `m` gets an interface `i` if it had none, and the current value of `x` is copied there. -/
theorem exportSym_spec {ms : List Modl} {root m : Nat} {x : Name} (hi : IfaceInv ms) (ho : Ordinary ms m) :
    IfaceInv (exportSym ms root m x) ∧ ∃ i, partner (exportSym ms root m x) m = some i ∧ m < i ∧
      (∀ u j, partner ms u = some j → partner (exportSym ms root m x) u = some j) ∧
      (∀ z u v, ownValue ms z u = some v → ∃ w, ownValue (exportSym ms root m x) z u = some w) ∧
      (∀ w v, FirstBinding ms root m x w v → ownValue (exportSym ms root m x) x i = some v) := by
  obtain ⟨ms2, i, h, he⟩ := export_mid (root := root) (x := x) hi ho
  have hil : i < ms2.length := partner_lt (h.inv.back m i h.iface)
  rw [he]
  cases hv : moduleValue ms2 root m x with
  | none =>
    dsimp only
    refine ⟨h.inv, i, h.iface, h.lt, h.old, fun z u v hv => ⟨v, h.own z u v hv⟩, fun w v hw => ?_⟩
    rw [h.same, moduleValue_some.2 ⟨w, hw⟩] at hv
    cases hv
  | some v =>
    dsimp only
    have hg := fun u => obSet_get ms2 i x v u
    have ho := fun z u => ownValue_obSet' ms2 i x v hil z u
    refine ⟨⟨fun u j hj => ?_, fun u j hj huj z w hw => ?_⟩, i, ?_, h.lt, fun u j hj => ?_, fun z u w hw => ?_, fun w v' hw => ?_⟩
    · rw [(hg _).1] at hj ⊢; exact h.inv.back u j hj
    · rw [(hg _).1] at hj
      rw [(hg _).2]
      rw [ho] at hw
      by_cases hz : z = x ∧ j = i
      · obtain ⟨rfl, rfl⟩ := hz
        have : u = m := by
          have h1 := h.inv.back u j hj
          have h2 := h.inv.back m j h.iface
          rw [h1] at h2
          cases h2
          rfl
        subst this
        exact h.has
      · rw [if_neg hz] at hw
        exact h.inv.only u j hj huj z w hw
    · rw [(hg _).1]; exact h.iface
    · rw [(hg _).1]; exact h.old u j hj
    · rw [ho]
      by_cases hz : z = x ∧ u = i
      · exact ⟨v, by rw [if_pos hz]⟩
      · exact ⟨w, by rw [if_neg hz]; exact h.own z u w hw⟩
    · rw [h.same, moduleValue_some.2 ⟨w, hw⟩] at hv
      cases hv
      rw [ho, if_pos ⟨rfl, rfl⟩]

theorem ordinary_of_partner {ms ms' : List Modl} {m : Nat} (h : Ordinary ms m) (hl : ms.length ≤ ms'.length)
    (hp : partner ms' m = partner ms m) : Ordinary ms' m := ⟨by have := h.1; omega, fun i hi => h.2 i (hp ▸ hi)⟩

/-- Every operation keeps the invariant, and an interface once made stays the interface of its module and keeps its names. -/
theorem modStep_inv {root : Nat} {ms ms' : List Modl} (h : ModStep root ms ms') (hi : IfaceInv ms) :
    IfaceInv ms' ∧ (∀ u j, partner ms u = some j → partner ms' u = some j) ∧
      ∀ z u v, ownValue ms z u = some v → ∃ w, ownValue ms' z u = some w := by
  have obs : ∀ m x v, m < ms.length → (∀ u, partner ms u = some m → u < m → x ∈ exported ms u) →
      IfaceInv (obSet ms m x v) ∧ (∀ u j, partner ms u = some j → partner (obSet ms m x v) u = some j) ∧
      ∀ z u w, ownValue ms z u = some w → ∃ w', ownValue (obSet ms m x v) z u = some w' := by
    intro m x v hm hx
    have hg := fun u => obSet_get ms m x v u
    have ho := fun z u => ownValue_obSet' ms m x v hm z u
    refine ⟨⟨fun u j hj => ?_, fun u j hj huj z w hw => ?_⟩, fun u j hj => ?_, fun z u w hw => ?_⟩
    · rw [(hg _).1] at hj ⊢; exact hi.back u j hj
    · rw [(hg _).1] at hj
      rw [(hg _).2]
      rw [ho] at hw
      by_cases hz : z = x ∧ j = m
      · obtain ⟨rfl, rfl⟩ := hz
        exact hx u hj huj
      · rw [if_neg hz] at hw
        exact hi.only u j hj huj z w hw
    · rw [(hg _).1]; exact hj
    · rw [ho]
      by_cases hz : z = x ∧ u = m
      · exact ⟨v, by rw [if_pos hz]⟩
      · exact ⟨w, by rw [if_neg hz]; exact hw⟩
  cases h with
  | create name =>
    have g := fun u => getElem?_snoc ms (freshModule name) u
    have pn : ∀ u j, partner (ms ++ [freshModule name]) u = some j ↔ partner ms u = some j := by
      intro u j
      unfold partner
      rw [g]
      by_cases hu : u = ms.length
      · rw [if_pos hu, hu, List.getElem?_eq_none (Nat.le_refl _)]; exact Iff.rfl
      · rw [if_neg hu]
    have own : ∀ z u, ownValue (ms ++ [freshModule name]) z u = ownValue ms z u := by
      intro z u
      unfold ownValue
      rw [g]
      by_cases hu : u = ms.length
      · rw [if_pos hu, hu, List.getElem?_eq_none (Nat.le_refl _)]; rfl
      · rw [if_neg hu]
    have ex : ∀ u, u ≠ ms.length → exported (ms ++ [freshModule name]) u = exported ms u := by
      intro u hu
      unfold exported
      rw [g, if_neg hu]
    refine ⟨⟨fun u j hj => ?_, fun u j hj huj z w hw => ?_⟩, fun u j hj => (pn u j).2 hj, fun z u w hw => ⟨w, by rw [own]; exact hw⟩⟩
    · exact (pn j u).2 (hi.back u j ((pn u j).1 hj))
    · rw [own] at hw
      have hj := (pn u j).1 hj
      rw [ex u (by have := partner_lt hj; omega)]
      exact hi.only u j hj huj z w hw
  | define m x v ho =>
    refine obs m x v ho.1 fun u hu hum => ?_
    have := ho.2 u (hi.back u m hu)
    omega
  | assign m u x v w hf =>
    obtain ⟨_, _, _, hw, _⟩ := hf
    have hul : u < ms.length := by
      unfold ownValue at hw
      cases hm : ms[u]? with
      | none => rw [hm] at hw; cases hw
      | some md => exact (List.getElem?_eq_some_iff.1 hm).1
    exact obs u x v hul fun a ha hau => hi.only a u ha hau x w hw
  | «export» m x ho =>
    obtain ⟨h1, i, _, _, h2, h3, _⟩ := exportSym_spec (root := root) (x := x) hi ho
    exact ⟨h1, h2, h3⟩
  | use m u _ =>
    have hg := fun w => useModule_get ms m u w
    refine ⟨⟨fun u j hj => ?_, fun u j hj huj z w hw => ?_⟩, fun u j hj => ?_, fun z u w hw => ?_⟩
    · rw [(hg _).1] at hj ⊢; exact hi.back u j hj
    · rw [(hg _).1] at hj
      rw [(hg _).2.2] at hw
      rw [(hg _).2.1]
      exact hi.only u j hj huj z w hw
    · rw [(hg _).1]; exact hj
    · exact ⟨w, by rw [(hg _).2.2]; exact hw⟩

theorem modSteps_inv {root : Nat} {ms ms' : List Modl} (h : ModSteps root ms ms') (hi : IfaceInv ms) :
    IfaceInv ms' ∧ (∀ u j, partner ms u = some j → partner ms' u = some j) ∧
      ∀ z u v, ownValue ms z u = some v → ∃ w, ownValue ms' z u = some w := by
  induction h with
  | nil => exact ⟨hi, fun _ _ h => h, fun _ _ v h => ⟨v, h⟩⟩
  | snoc _ hs ih =>
    obtain ⟨a1, a2, a3⟩ := ih
    obtain ⟨b1, b2, b3⟩ := modStep_inv hs a1
    refine ⟨b1, fun u j h => b2 u j (a2 u j h), fun z u v h => ?_⟩
    obtain ⟨w, hw⟩ := a3 z u v h
    exact b3 z u w hw

/-- At startup no module has an interface. -/
theorem ifaceInv_start {ms : List Modl} (h : ∀ m, partner ms m = Option.none) : IfaceInv ms :=
  ⟨fun m i hm => (by rw [h] at hm; cases hm), fun m i hm => (by rw [h] at hm; cases hm)⟩

/-- **Hidden.**  After any history of operations on modules, the interface of a module binds no name that the module has not exported. -/
theorem c71_hidden_partial {root : Nat} {ms0 ms : List Modl} (hstart : ∀ m, partner ms0 m = Option.none) (h : ModSteps root ms0 ms)
    {m i : Nat} (ho : Ordinary ms m) (hp : partner ms m = some i) {x : Name} (hx : x ∉ exported ms m) :
    ownValue ms x i = Option.none := by
  have := (modSteps_inv h (ifaceInv_start hstart)).1.only m i hp (ho.2 i hp) x
  cases hv : ownValue ms x i with
  | none => rfl
  | some v => exact absurd (this v hv) hx

/-- **Shown.**  Exporting a name that the module sees binds it in the interface to its present value; after any further history the
interface still is the interface of the module and still binds the name. -/
theorem c71_shown_partial {root : Nat} {ms0 ms ms' : List Modl} (hstart : ∀ m, partner ms0 m = Option.none) (h : ModSteps root ms0 ms)
    {m u : Nat} {x : Name} {v : V} (ho : Ordinary ms m) (hb : FirstBinding ms root m x u v)
    (h' : ModSteps root (exportSym ms root m x) ms') :
    ∃ i, partner (exportSym ms root m x) m = some i ∧ ownValue (exportSym ms root m x) x i = some v ∧
      partner ms' m = some i ∧ ∃ w, ownValue ms' x i = some w := by
  obtain ⟨h1, i, hi, _, _, _, hval⟩ := exportSym_spec (root := root) (x := x) (modSteps_inv h (ifaceInv_start hstart)).1 ho
  obtain ⟨_, h2, h3⟩ := modSteps_inv h' h1
  exact ⟨i, hi, hval u v hb, h2 m i hi, h3 x i v (hval u v hb)⟩

/-- An importer that finds nothing of its own, and nothing in newer imports, gets what the interface binds. -/
theorem c71_import_partial {ms : List Modl} {root a u : Nat} {md : Modl} {x : Name} (ha : ms[a]? = some md)
    (hown : ownValue ms x a = Option.none) :
    let i := (partner ms u).getD u
    (∀ v, ownValue ms x i = some v → moduleValue (useModule ms a u) root a x = some v) ∧
    (ownValue ms x i = Option.none → moduleValue (useModule ms a u) root a x = moduleValue ms root a x) := by
  have hlt : a < ms.length := (List.getElem?_eq_some_iff.1 ha).1
  have hi : ifaceOf ms u = (partner ms u).getD u := by
    unfold ifaceOf partner
    cases ms[u]? <;> rfl
  have hso : searchOrder (useModule ms a u) root a = a :: ((partner ms u).getD u) :: md.uses ++ [root] := by
    unfold searchOrder useModule
    rw [ha]
    dsimp only
    rw [List.getElem?_set_self hlt, hi]
  have hso0 : searchOrder ms root a = a :: md.uses ++ [root] := by
    unfold searchOrder
    rw [ha]
  have hf : ownValue (useModule ms a u) x = ownValue ms x := funext fun w => (useModule_get ms a u w).2.2 x
  refine ⟨fun v hv => ?_, fun hv => ?_⟩
  · unfold moduleValue
    rw [hso, hf]
    simp [hown, hv]
  · unfold moduleValue
    rw [hso, hso0, hf]
    simp [hown, hv]

/-- Later definitions in ordinary modules do not reach an interface. -/
theorem c71_snapshot {ms : List Modl} (hi : IfaceInv ms) {m i k : Nat} {z x : Name} {v : V} (hp : partner ms m = some i) (hmi : m < i)
    (hk : Ordinary ms k) : ownValue (obSet ms k x v) z i = ownValue ms z i := by
  rw [ownValue_obSet' ms k x v hk.1, if_neg]
  rintro ⟨_, rfl⟩
  have := hk.2 m (hi.back m i hp)
  omega

/-! Programs on which the full statement fails.  `mod a` is `(define-module (a))`, `use a` is `(use-modules (a))`. -/
namespace Demo
open Ev.Demo
def mod (a : Name) : V := l [y "define-module", l [y a]]
def use (a : Name) : V := l [y "use-modules", l [y a]]
def def' (x : Name) (i : Int) : V := l [y "define", y x, n i]
def exp (x : Name) : V := l [y "export", y x]
def prog (es : List V) : V := l (y "begin" :: es)
end Demo
open Demo in
/-- A redefinition after the export is not seen by importers: `b` still sees 1 where `a` sees 2. -/
theorem c71_counterexample_redefinition :
    (∃ s', Evals Demo.prims 0 (prog [mod "a", def' "x" 1, exp "x", mod "b", use "a", mod "a", def' "x" 2, mod "b", .sym "x"]) Demo.s0 (.ok (.num 1)) s') ∧
    (∃ s', Evals Demo.prims 0 (prog [mod "a", def' "x" 1, exp "x", mod "b", use "a", mod "a", def' "x" 2, .sym "x"]) Demo.s0 (.ok (.num 2)) s') :=
  ⟨Demo.evals_of 30 (by decide +kernel), Demo.evals_of 30 (by decide +kernel)⟩

open Demo in
/-- A name exported before it is defined is never visible: `b` gets an unbound variable error. -/
theorem c71_counterexample_early_export :
    ∃ s', Evals Demo.prims 0 (prog [mod "a", exp "x", def' "x" 1, mod "b", use "a", .sym "x"]) Demo.s0
      (.stop (.err Option.none "error" (listOf [.str "symbol not found"]))) s' :=
  Demo.evals_of 30 (by decide +kernel)

open Demo in
/-- Importing the interface object of `a` (module 2 here) with `module-use!` imports all of `a`: `b` (module 3) sees the unexported `z`. -/
theorem c71_counterexample_interface_object :
    ∃ s', Evals Demo.prims 0 (prog [mod "a", def' "x" 1, def' "z" 7, exp "x", mod "b",
      Ev.Demo.l [.func "module-use!" 2, .modl 3, Ev.Demo.l [.func "module-ref" (-2), .modl 1, quoted (.sym "%module-public-interface")]],
      .sym "z"]) Demo.s0 (.ok (.num 7)) s' :=
  Demo.evals_of 30 (by decide +kernel)

open Demo in
/-- A module that has exported nothing shows everything to its importers. -/
theorem c71_counterexample_no_export :
    ∃ s', Evals Demo.prims 0 (prog [mod "a", def' "x" 1, mod "b", use "a", .sym "x"]) Demo.s0 (.ok (.num 1)) s' :=
  Demo.evals_of 30 (by decide +kernel)

open Demo in
/-- `set!` of an imported variable changes only the interface's copy: the exporting module keeps 1. -/
theorem c71_counterexample_set :
    (∃ s', Evals Demo.prims 0 (prog [mod "a", def' "x" 1, exp "x", mod "b", use "a", Ev.Demo.l [.sym "set!", .sym "x", .num 5], .sym "x"])
      Demo.s0 (.ok (.num 5)) s') ∧
    (∃ s', Evals Demo.prims 0 (prog [mod "a", def' "x" 1, exp "x", mod "b", use "a", Ev.Demo.l [.sym "set!", .sym "x", .num 5], mod "a", .sym "x"])
      Demo.s0 (.ok (.num 1)) s') :=
  ⟨Demo.evals_of 30 (by decide +kernel), Demo.evals_of 30 (by decide +kernel)⟩

/-! ## C72 -/

/-- `scm_module_define`, `scm_c_module_define` (src/c/module.cc:617-633, 589-598). -/
def scmModuleDefine (ms : List Modl) (m : Nat) (x : Name) (v : V) : List Modl := obSet ms m x v

/-- Module `a` reaches module `m` in its search before any binding of `x`. -/
def Through (ms : List Modl) (root a m : Nat) (x : Name) : Prop :=
  ∃ before after, searchOrder ms root a = before ++ m :: after ∧ ∀ p ∈ before, ownValue ms x p = Option.none

theorem searchOrder_obSet (ms : List Modl) (root m a : Nat) (x : Name) (v : V) : searchOrder (obSet ms m x v) root a = searchOrder ms root a := by
  unfold obSet
  cases hm : ms[m]? with
  | none => rfl
  | some md =>
    have hlt : m < ms.length := (List.getElem?_eq_some_iff.1 hm).1
    unfold searchOrder
    dsimp only
    by_cases ha : a = m
    · subst ha
      rw [List.getElem?_set_self hlt, hm]
    · rw [List.getElem?_set_ne (Ne.symm ha)]

/-- Defining `x` in the module `m` through the C interface: other names keep their meaning everywhere, `x` changes exactly in the modules
whose search reaches `m` first. -/
theorem c72_define (ms : List Modl) (root m : Nat) (x : Name) (v : V) (hm : m < ms.length) (a : Nat) :
    (∀ z, z ≠ x → moduleValue (scmModuleDefine ms m x v) root a z = moduleValue ms root a z) ∧
    (Through ms root a m x → moduleValue (scmModuleDefine ms m x v) root a x = some v) ∧
    (¬ Through ms root a m x → moduleValue (scmModuleDefine ms m x v) root a x = moduleValue ms root a x) := by
  have hmd : ms[m]? = some ms[m] := List.getElem?_eq_getElem hm
  have hown := fun z u => ownValue_obSet hmd (x := x) (v := v) z u
  have hso := searchOrder_obSet ms root m a x v
  unfold scmModuleDefine
  refine ⟨fun z hz => ?_, fun ⟨b, c, h1, h2⟩ => ?_, fun hn => ?_⟩
  · unfold moduleValue
    rw [hso]
    congr 1
    funext u
    rw [hown]
    simp [hz]
  · unfold moduleValue
    rw [hso, h1]
    clear h1
    induction b with
    | nil =>
      rw [List.nil_append, List.findSome?_cons, hown]
      simp
    | cons u us ih =>
      rw [List.cons_append, List.findSome?_cons, hown]
      by_cases hu : u = m
      · simp [hu]
      · simp only [hu, and_false, if_false, h2 u (by simp)]
        exact ih fun p hp => h2 p (by simp [hp])
  · unfold moduleValue
    rw [hso]
    have key : ∀ l : List Nat, (¬ ∃ b c, l = b ++ m :: c ∧ ∀ p ∈ b, ownValue ms x p = Option.none) →
        l.findSome? (ownValue (obSet ms m x v) x) = l.findSome? (ownValue ms x) := by
      intro l
      induction l with
      | nil => intro _; rfl
      | cons u us ih =>
        intro hno
        have hu : u ≠ m := by
          rintro rfl
          exact hno ⟨[], us, rfl, by simp⟩
        rw [List.findSome?_cons, List.findSome?_cons, hown]
        simp only [hu, and_false, if_false]
        cases ho : ownValue ms x u with
        | some w => rfl
        | none =>
          refine ih fun ⟨b, c, h1, h2⟩ => hno ⟨u :: b, c, by rw [h1]; rfl, ?_⟩
          intro p hp
          rcases List.mem_cons.1 hp with rfl | hp
          · exact ho
          · exact h2 p hp
    exact key _ hn

/-- `(define x e)` at top level: the same for the current module, and nothing but that module changes. -/
theorem c72_define_form {x : Name} {e v : V} {s s1 : St σ} {f : Frame} (hm : NoMacro s "define") (he : Evals P 0 e s (.ok v) s1)
    (hf : s1.frames[0]? = some f) (hp : f.parent = Option.none) (hx : f.entries.lookup x = Option.none) :
    Evals P 0 (listOf [.sym "define", .sym x, e]) s (.ok .none) { s1 with mods := scmModuleDefine s1.mods s1.cur x v } := by
  show Evals P 0 (.pair (.sym "define") (.pair (.sym x) (.pair e .nil))) s _ _
  rw [evals_form (f := .define) hm (by decide)]
  simp only [evalForm]
  simp only [evalDefine, uncons, bind_eq_some]
  refine .inl ⟨v, s1, evals_iff.1 he, .inl ⟨(), defineSt s1 0 x v, rfl, ?_⟩⟩
  have : defineSt s1 0 x v = { s1 with mods := scmModuleDefine s1.mods s1.cur x v } := by
    unfold defineSt lookOwn
    simp only [hf, hp, ← lookup_eq_findEntry, hx]
    rfl
  rw [this]
  rfl

/-- Two modules, the second imports the first; `x` is bound in the first, `y` in the second. -/
def Demo.twoModules : List Modl :=
  [⟨listOf [.sym "root"], [], [], [], Option.none⟩, ⟨listOf [.sym "a"], [("x", .num 1)], [], [], Option.none⟩,
   ⟨listOf [.sym "b"], [("y", .num 2)], [1], [], Option.none⟩]

/-- A definition of `x` in the first module is seen by the second, one of `y` is not. -/
example : Through Demo.twoModules 0 2 1 "x" ∧ ¬ Through Demo.twoModules 0 2 1 "y" := by
  refine ⟨⟨[2], [0], rfl, by decide⟩, ?_⟩
  rintro ⟨b, c, h1, h2⟩
  have h1 : [2, 1, 0] = b ++ 1 :: c := h1
  cases b with
  | nil => simp at h1
  | cons u us =>
    simp only [List.cons_append, List.cons.injEq] at h1
    have := h2 u (by simp)
    rw [← h1.1] at this
    exact absurd this (by decide)

/-! Cases of the theorems above. -/
def Demo.sTwo : St Unit := { Demo.s0 with mods := Demo.twoModules, cur := 2 }
theorem Demo.sTwo_unbound {x : Name} (h : Demo.builtins.lookup x = Option.none) : Unbound Demo.sTwo.frames x 0 := by
  intro i v hb
  cases hb with
  | here h1 h2 => cases h1; rw [h] at h2; cases h2
  | up h1 _ h3 _ => cases h1; cases h3
/-- In module 2 of `twoModules` the variable `x` is found in the import (module 1), `w` nowhere. -/
example : FirstBinding Demo.twoModules 0 2 "x" 1 (.num 1) ∧ NoBinding Demo.twoModules 0 2 "w" :=
  ⟨⟨[2], [0], rfl, rfl, by decide⟩, by unfold NoBinding; decide⟩
example : Evals Demo.prims 0 (.sym "x") Demo.sTwo (.ok (.num 1)) Demo.sTwo :=
  c70_current (u := 1) Demo.wf_s0 (by decide) (Demo.sTwo_unbound (by decide))
    (fun m h => by
      cases h with
      | here h1 h2 => cases h1; cases h2
      | up h1 _ h3 _ => cases h1; cases h3)
    ⟨[2], [0], rfl, rfl, by decide⟩
example : Evals Demo.prims 0 (listOf [.func "module-ref" (-2), .modl 2, quoted (.sym "w"), .num 9]) Demo.sTwo (.ok (.num 9)) Demo.sTwo :=
  ((c70_module_ref (es := [.modl 2, quoted (.sym "w"), .num 9]) (by decide)
    (.cons ⟨1, rfl⟩ (.cons ⟨2, rfl⟩ (.cons ⟨1, rfl⟩ .nil)))).2 (by unfold NoBinding; decide)).1 _ _ rfl
/-- `(use-modules (a))` in the root module. -/
example : ∃ s', Evals Demo.prims 0 (listOf [.sym "use-modules", listOf [.sym "a"]]) { Demo.sTwo with cur := 0 } (.ok .none) s' ∧
    searchOrder s'.mods s'.root s'.cur = [0, 1, 0] := by
  obtain ⟨s', h1, h2, _⟩ := c70_use (P := Demo.prims) (env := 0) (s := { Demo.sTwo with cur := 0 }) (u := 1) (a := .sym "a") (d := .nil)
    ⟨(Demo.noMacro_s0 _).1, fun m hm v hv => by
      simp only [Demo.sTwo, Demo.twoModules, List.mem_cons, List.not_mem_nil, or_false] at hm
      rcases hm with rfl | rfl | rfl <;> simp at hv⟩ (by decide) rfl
  exact ⟨s', h1, h2⟩
/-- `(module-use! m2 m1)`. -/
example : ∃ s', Evals Demo.prims 0 (.pair (.func "module-use!" (-2)) (listOf [.modl 2, .modl 1])) Demo.sTwo (.ok .none) s' ∧ searchOrder s'.mods s'.root 1 = searchOrder Demo.sTwo.mods Demo.sTwo.root 1 := by
  obtain ⟨s', h1, _, _, h2⟩ := c70_module_use (P := Demo.prims) (env := 0) (s := Demo.sTwo) (m := 2) (u := 1) (es := [.modl 2, .modl 1]) (.cons ⟨1, rfl⟩ (.cons ⟨1, rfl⟩ .nil)) (.inl rfl) rfl
  exact ⟨s', h1, h2 1 (by decide)⟩
/-- `a` (module 1) exports `x`; the interface is module 3; `y`, not exported, is not in it. -/
example : ModSteps 0 Demo.twoModules (exportSym Demo.twoModules 0 1 "x") ∧ (∀ m, partner Demo.twoModules m = Option.none) ∧
    Ordinary Demo.twoModules 1 ∧ FirstBinding Demo.twoModules 0 1 "x" 1 (.num 1) ∧
    partner (exportSym Demo.twoModules 0 1 "x") 1 = some 3 ∧ exported (exportSym Demo.twoModules 0 1 "x") 1 = ["x"] := by
  have hn : ∀ m, partner Demo.twoModules m = Option.none := by
    intro m
    match m with
    | 0 => rfl
    | 1 => rfl
    | 2 => rfl
    | m + 3 => rfl
  have ho : Ordinary Demo.twoModules 1 := ⟨by decide, fun i h => by rw [hn] at h; cases h⟩
  exact ⟨.snoc .nil (.export 1 "x" ho), hn, ho, ⟨[], [0], rfl, rfl, by simp⟩, by decide, by decide⟩
example : ArgsEval (Evals Demo.prims) 0 [.modl 2, quoted (.sym "x")] Demo.sTwo (.ok [.modl 2, .sym "x"]) Demo.sTwo :=
  .cons ⟨1, rfl⟩ (.cons ⟨2, rfl⟩ .nil)

/-! ## C73 -/

/-- `(module-bound? m 'x)` is `#t` exactly when `x` resolves in `m` to a value other than `#f`; the state is not changed. -/
theorem c73_bound_partial {env : EnvId} {es : List V} {s s1 : St σ} {m : Nat} {x : Name}
    (h : ArgsEval (Evals P) env es s (.ok [.modl m, .sym x]) s1) :
    ∃ b, Evals P env (.pair (.func "module-bound?" 2) (listOf es)) s (.ok (.bool b)) s1 ∧
      (b = true ↔ ∃ u v, FirstBinding s1.mods s1.root m x u v ∧ v ≠ .bool false) := by
  refine ⟨moduleBound s1.mods s1.root m x, evals_modPrim (by decide) (.inr ⟨rfl, .inr (.inr (.inl rfl))⟩) h rfl, ?_⟩
  unfold moduleBound
  rw [searchModule_eq]
  cases hv : moduleValue s1.mods s1.root m x with
  | none =>
    simp only [Bool.false_eq_true, false_iff]
    rintro ⟨u, v, hu, _⟩
    rw [moduleValue_some.2 ⟨u, hu⟩] at hv
    cases hv
  | some v =>
    obtain ⟨u, hu⟩ := moduleValue_some.1 hv
    dsimp only
    constructor
    · intro ht
      refine ⟨u, v, hu, ?_⟩
      rintro rfl
      cases ht
    · rintro ⟨u', v', hu', hne⟩
      rw [moduleValue_some.2 ⟨u', hu'⟩] at hv
      cases hv
      cases v <;> first | rfl | (rename_i b; cases b <;> first | rfl | exact absurd rfl hne)

/-- C73 in full is false: a variable bound to `#f` is reported unbound. -/
theorem c73_counterexample : ∃ s : St Unit, FirstBinding s.mods s.root 0 "x" 0 (.bool false) ∧
    Evals Demo.prims 0 (listOf [.func "module-bound?" 2, .modl 0, quoted (.sym "x")]) s (.ok (.bool false)) s := by
  refine ⟨{ Demo.s0 with mods := [⟨listOf [.sym "root"], [("x", .bool false)], [], [], Option.none⟩] }, ⟨[], [0], rfl, rfl, by simp⟩, 5, rfl⟩

end Pscm
