import Verif.Registry
import Verif.EvApi2Props
/-!
# C135: the builtins are there, and their C functions get the arguments they expect
-/
namespace Pscm
open Pscm.Ev
variable {σ : Type} {P : Prims σ}

/-! ## Specification -/

/-- The C function has exactly the parameters it is entered with. -/
def Suits : Params → Entered → Prop
  | .fixed k, .args n => n = k
  | .list, .list => True
  | _, _ => False

/-! ## Lemmas -/

/-- What is checked of each registration. -/
def regOk (r : Reg) : Bool :=
  r.name = "current-module" ||
  match r.params with
  | .fixed k => (r.arity == (k : Int) && k ≤ 3) || (r.arity == -1 && k == 2)
  | .list => r.arity == -2

theorem registry_ok : ∀ r ∈ registry, regOk r = true := by
  have : registry.all regOk = true := by decide +kernel
  exact List.all_eq_true.1 this

theorem registry_nodup : (registry.map Reg.name).Nodup := by decide +kernel

theorem registry_keyword : ∀ r ∈ registry, isKeyword r.name = false := by
  have : registry.all (fun r => !isKeyword r.name) = true := by decide +kernel
  intro r hr
  simpa using List.all_eq_true.1 this r hr

theorem registry_special : ∀ r ∈ registry, (!decide (r.name ∈ ["apply", "map", "map-in-order", "call/cc", "call-with-current-continuation"]) ||
    r.arity == -2) = true := by
  have : registry.all (fun r => !decide (r.name ∈ ["apply", "map", "map-in-order", "call/cc", "call-with-current-continuation"]) ||
    r.arity == -2) = true := by decide +kernel
  exact List.all_eq_true.1 this

theorem registry_form : ∀ r ∈ registry, ((formOf r.name).isNone || r.arity == -2) = true := by
  have : registry.all (fun r => (formOf r.name).isNone || r.arity == -2) = true := by decide +kernel
  exact List.all_eq_true.1 this

theorem registry_current : ∀ r ∈ registry, r.name = "current-module" → r.arity = 0 ∧ r.params = .fixed 1 := by
  have : registry.all (fun r => !decide (r.name = "current-module") || (decide (r.arity = 0) && decide (r.params = .fixed 1))) = true := by decide +kernel
  intro r hr he
  have := List.all_eq_true.1 this r hr
  simpa [he] using this

theorem lookup_envInsert (es : List (Name × V)) (x y : Name) (v : V) : (envInsert es x v).lookup y = if y = x then some v else es.lookup y := by
  unfold envInsert
  cases h : es.lookup x with
  | none =>
    simp only [List.lookup]
    by_cases hy : y = x
    · subst hy; simp
    · simp [hy, beq_eq_false_iff_ne.2 hy]
  | some w =>
    simp only []
    have key : ∀ l : List (Name × V), (l.map fun e => if e.1 = x then (x, v) else e).lookup y =
        if y = x then (if (l.lookup x).isSome then some v else Option.none) else l.lookup y := by
      intro l
      induction l with
      | nil => simp
      | cons e l ih =>
        obtain ⟨a, b⟩ := e
        by_cases ha : a = x
        · subst ha
          by_cases hy : y = a
          · subst hy; simp [List.lookup]
          · simp [List.lookup, hy, beq_eq_false_iff_ne.2 hy, ih]
        · by_cases hy : y = x
          · subst hy
            have hb : (y == a) = false := beq_eq_false_iff_ne.2 (Ne.symm ha)
            have e1 : ∀ (m : List (Name × V)) (c : V), ((a, c) :: m).lookup y = m.lookup y := fun m c => by simp only [List.lookup, hb]
            rw [List.map_cons, if_neg ha, e1, e1, ih]
          · simp only [List.map_cons, if_neg ha, List.lookup]
            cases hb : y == a <;> simp [hy, ih]
    rw [key es, h]
    simp

theorem lookup_registered (rs : List Reg) (hn : (rs.map Reg.name).Nodup) : ∀ (es : List (Name × V)) (y : Name),
    (∀ r ∈ rs, r.name = y → (registered rs es).lookup y = some (.func r.name r.arity)) ∧
    ((∀ r ∈ rs, r.name ≠ y) → (registered rs es).lookup y = es.lookup y) := by
  induction rs with
  | nil => intro es y; simp [registered]
  | cons q rs ih =>
    intro es y
    simp only [List.map_cons, List.nodup_cons] at hn
    obtain ⟨h1, h2⟩ := ih hn.2 (envInsert es q.name (.func q.name q.arity)) y
    refine ⟨fun r hr hy => ?_, fun h => ?_⟩
    · simp only [List.mem_cons] at hr
      rcases hr with rfl | hr
      · show (registered rs _).lookup y = _
        rw [h2 fun r' hr' e => hn.1 (by rw [hy, ← e]; exact List.mem_map_of_mem hr'), lookup_envInsert, if_pos hy.symm]
      · exact h1 r hr hy
    · show (registered rs _).lookup y = _
      rw [h2 fun r hr => h r (.tail _ hr), lookup_envInsert, if_neg fun e => h q (.head _) e.symm]

attribute [local irreducible] registered registry

theorem start_frame (x : σ) :
    (start x).frames[0]? = some ⟨initMacros.reverse ++ registered registry [], Option.none, Option.none⟩ := by
  unfold start
  generalize registered registry [] = l
  rfl

theorem macros_names : initMacros.map Prod.fst = ["read-set!", "read-enable", "read-disable", "debug-set!", "debug-enable", "debug-disable"] := by
  decide +kernel

theorem registry_macros : ∀ r ∈ registry, r.name ∉ initMacros.map Prod.fst := by
  rw [macros_names]
  have : registry.all (fun r => !decide (r.name ∈ ["read-set!", "read-enable", "read-disable", "debug-set!", "debug-enable", "debug-disable"])) = true := by
    decide +kernel
  intro r hr
  simpa using List.all_eq_true.1 this r hr

theorem lookup_skip {es fs : List (Name × V)} {y : Name} (h : y ∉ es.map Prod.fst) : (es ++ fs).lookup y = fs.lookup y := by
  induction es with
  | nil => rfl
  | cons e es ih =>
    simp only [List.map_cons, List.mem_cons, not_or] at h
    rw [List.cons_append, List.lookup]
    have : (y == e.1) = false := by simpa using h.1
    rw [this]
    exact ih h.2

/-- The entry of a builtin in the initial global environment. -/
theorem start_lookup {r : Reg} (hr : r ∈ registry) : (initMacros.reverse ++ registered registry []).lookup r.name = some (.func r.name r.arity) := by
  rw [lookup_skip (by rw [List.map_reverse, List.mem_reverse]; exact registry_macros r hr)]
  exact (lookup_registered registry registry_nodup [] r.name).1 r hr rfl

theorem mem_of_lookup {es fs : List (Name × V)} {y : Name} {v : V} (h : (es ++ fs).lookup y = some v) : (y, v) ∈ es ∨ fs.lookup y = some v := by
  induction es with
  | nil => exact .inr h
  | cons e es ih =>
    rw [List.cons_append, List.lookup] at h
    split at h
    · rename_i hy
      cases h
      have : y = e.1 := by simpa using hy
      subst this
      exact .inl (.head _)
    · rcases ih h with h | h
      · exact .inl (.tail _ h)
      · exact .inr h

theorem start_top (x : σ) : TopLevel (start x) := ⟨_, start_frame x, rfl, rfl⟩

/-- A call of a builtin through the global variable of its name. -/
theorem evals_builtin {s s' : St σ} {g : Frame} {x n : Name} {a : Int} {rest : V} {o : Out V}
    (hg : s.frames[0]? = some g) (hx : g.entries.lookup x = some (.func n a)) (hf : formOf x = Option.none) :
    Evals P 0 (.pair (.sym x) rest) s o s' ↔ Evals P 0 (.pair (.func n a) rest) s o s' := by
  have hop : opValue s 0 x = some (.func n a) := by
    unfold opValue
    rw [lookOwn_zero hg, hx]
  rw [evals_step]
  show evalPair P (run P) 0 (.sym x) rest s = _ ↔ _
  unfold evalPair
  simp only [Ev.getSt_bind]
  rw [hop]
  simp only [hf]
  exact evals_iff.symm

/-! ## C135 -/

/-- C135: after the initialisation every registered name has, at top level, the builtin registered under it, no name is registered twice, and besides the
builtins there are the six option macros and `%load-path`. -/
theorem c135_bound (x : σ) :
    (registry.map Reg.name).Nodup ∧ (∀ r ∈ registry, Evals P 0 (.sym r.name) (start x) (.ok (.func r.name r.arity)) (start x)) ∧
    ∀ y v, TopValue (start x) y v → y ∉ registry.map Reg.name →
      y = "%load-path" ∧ v = .nil ∨ y ∈ ["read-set!", "read-enable", "read-disable", "debug-set!", "debug-enable", "debug-disable"] ∧ isMacro v = true := by
  refine ⟨registry_nodup, fun r hr => ?_, fun y v hv hy => ?_⟩
  · exact evals_top (start_top x) (registry_keyword r hr) (.global (start_frame x) (start_lookup hr))
  · have hno := (lookup_registered registry registry_nodup [] y).2 fun r hr e => hy (List.mem_map.2 ⟨r, hr, e⟩)
    cases hv with
    | @global g hg hl =>
      rw [start_frame] at hg
      have hg := (Option.some.inj hg).symm
      subst hg
      simp only [] at hl
      rcases mem_of_lookup hl with hm | hm
      · have hm : (y, v) ∈ initMacros := List.mem_reverse.1 hm
        refine .inr ⟨?_, ?_⟩
        · rw [← macros_names]; exact List.mem_map.2 ⟨_, hm, rfl⟩
        · have : initMacros.all (fun q => isMacro q.2) = true := by decide +kernel
          exact List.all_eq_true.1 this _ hm
      · rw [hno] at hm
        cases hm
    | @module g u hg hl hb =>
      obtain ⟨b, a, hs, ho, hbf⟩ := hb
      have hs : [0, 0] = b ++ u :: a := hs
      have : u = 0 := by
        have : u ∈ ([0, 0] : List Nat) := by rw [hs]; simp
        simpa using this
      subst this
      refine .inl ?_
      have ho : ([("%load-path", V.nil)] : List (Name × V)).lookup y = some v := ho
      simp only [List.lookup] at ho
      split at ho
      · rename_i hy; cases ho; exact ⟨by simpa using hy, rfl⟩
      · cases ho

theorem not_mem_of_lookup {es : List (Name × V)} {y : Name} (h : es.lookup y = Option.none) : y ∉ es.map Prod.fst := by
  induction es with
  | nil => simp
  | cons e es ih =>
    rw [List.lookup] at h
    split at h
    · cases h
    · rename_i hy
      simp only [List.map_cons, List.mem_cons, not_or]
      exact ⟨by simpa using hy, ih h⟩

/-- The store of a `define-macro` form at top level, for a name without binding. -/
theorem define_macro_top {s : St σ} {es : List (Name × V)} {y : Name} {args body : V} (hfr : s.frames = [⟨es, Option.none, Option.none⟩]) (hc : s.cur = s.root)
    (hn : es.lookup y = Option.none) (hd : es.lookup "define-macro" = Option.none) (hm : ∀ m ∈ s.mods, m.obarray.lookup "define-macro" = Option.none) :
    Evals P 0 (.pair (.sym "define-macro") (.pair (.pair (.sym y) args) body)) s (.ok .none)
      { s with frames := [⟨(y, .macro (macroParams args) (mkBody body) 0) :: es, Option.none, Option.none⟩] } := by
  have hnm : NoMacro s "define-macro" := by
    refine ⟨fun f hf v hv => ?_, fun m hmm v hv => ?_⟩
    · rw [hfr] at hf
      simp only [List.mem_singleton] at hf
      subst hf
      exact absurd (List.mem_map.2 ⟨_, hv, rfl⟩) (not_mem_of_lookup hd)
    · exact absurd (List.mem_map.2 ⟨_, hv, rfl⟩) (not_mem_of_lookup (hm m hmm))
  rw [evals_form hnm (f := .defineMacro) rfl]
  have hfe : findEntry y es = Option.none := by rw [← lookup_eq_findEntry]; exact hn
  have hhe : hasEntry y es = false := by unfold hasEntry; rw [hfe]; rfl
  have : defineMacroSt s 0 y (.macro (macroParams args) (mkBody body) 0) =
      { s with frames := [⟨(y, .macro (macroParams args) (mkBody body) 0) :: es, Option.none, Option.none⟩] } := by
    unfold defineMacroSt
    rw [if_neg (by simp [hc])]
    simp only [hfr, List.getElem?_cons_zero, lookOwn, insertDeep, findFrame, hfe, hhe, Option.isSome_none, Bool.false_eq_true, if_false]
    rfl
  show some (Out.ok V.none, defineMacroSt s 0 y (.macro (macroParams args) (mkBody body) 0)) = _
  rw [this]

/-- Forms that define macros with distinct new names. -/
theorem define_macros (f : V) (fs : List V) : ∀ {s : St σ} {es : List (Name × V)}, s.frames = [⟨es, Option.none, Option.none⟩] → s.cur = s.root →
    (∀ g ∈ f :: fs, (initMacroOf g).isSome = true) → (((f :: fs).filterMap initMacroOf).map Prod.fst).Nodup →
    (∀ y ∈ ((f :: fs).filterMap initMacroOf).map Prod.fst, es.lookup y = Option.none ∧ y ≠ "define-macro") → es.lookup "define-macro" = Option.none →
    (∀ m ∈ s.mods, m.obarray.lookup "define-macro" = Option.none) →
    SeqEval (Evals P) 0 (f :: fs) s (.ok .none) { s with frames := [⟨((f :: fs).filterMap initMacroOf).reverse ++ es, Option.none, Option.none⟩] } := by
  induction fs generalizing f with
  | nil =>
    intro s es hfr hc hg hnd hes hd hm
    obtain ⟨q, hq⟩ := Option.isSome_iff_exists.1 (hg f (.head _))
    have hf := hq
    unfold initMacroOf at hf
    split at hf
    · rename_i y args body
      cases hf
      refine .last ?_
      rw [List.filterMap_cons_some hq]
      exact define_macro_top hfr hc (hes y (by rw [List.filterMap_cons_some hq]; exact .head _)).1 hd hm
    · cases hf
  | cons g fs ih =>
    intro s es hfr hc hg hnd hes hd hm
    obtain ⟨q, hq⟩ := Option.isSome_iff_exists.1 (hg f (.head _))
    have hf := hq
    unfold initMacroOf at hf
    split at hf
    · rename_i y args body
      cases hf
      rw [List.filterMap_cons_some hq] at hnd hes
      simp only [List.map_cons, List.nodup_cons] at hnd
      have hy := hes y (.head _)
      refine .next (define_macro_top hfr hc hy.1 hd hm) ?_
      rw [List.filterMap_cons_some hq, List.reverse_cons, List.append_assoc]
      refine ih g (s := { s with frames := [⟨_ :: es, Option.none, Option.none⟩] }) rfl hc (fun k hk => hg k (.tail _ hk)) hnd.2 (fun z hz => ?_) ?_ hm
      · have hzy : z ≠ y := by rintro rfl; exact hnd.1 hz
        rw [List.singleton_append, List.lookup_cons, show (z == y) = false by simpa using hzy]
        exact hes z (.tail _ hz)
      · rw [List.singleton_append, List.lookup_cons, show ("define-macro" == y) = false by simpa using fun e => hy.2 e.symm]
        exact hd
    · cases hf

/-- C135: the initial state is what the six strings evaluated by the initialisation make of the state with the builtins. -/
theorem c135_macros (x : σ) : SeqEval (Evals P) 0 initForms (bare x) (.ok .none) (start x) := by
  have hno : ∀ y ∈ "define-macro" :: initMacros.map Prod.fst, (registered registry []).lookup y = Option.none := by
    intro y hy
    refine (lookup_registered registry registry_nodup [] y).2 fun r hr e => ?_
    rcases List.mem_cons.1 hy with rfl | hy
    · have : registry.all (fun r => r.name != "define-macro") = true := by decide +kernel
      simpa [e] using List.all_eq_true.1 this r hr
    · exact registry_macros r hr (e ▸ hy)
  have h := define_macros (P := P) (optionForms "read-set!" "read-enable" "read-disable" "read-options-interface").head!
    initForms.tail (s := bare x) (es := registered registry []) rfl rfl
  have e : ((optionForms "read-set!" "read-enable" "read-disable" "read-options-interface").head! :: initForms.tail) = initForms := rfl
  rw [e] at h
  refine h ?_ ?_ ?_ ?_ ?_
  · have : initForms.all (fun g => (initMacroOf g).isSome) = true := by decide +kernel
    exact List.all_eq_true.1 this
  · show (initMacros.map Prod.fst).Nodup
    rw [macros_names]; decide
  · intro y hy
    refine ⟨hno y (.tail _ hy), ?_⟩
    have hy : y ∈ initMacros.map Prod.fst := hy
    rw [macros_names] at hy
    rintro rfl
    revert hy
    decide
  · exact hno _ (.head _)
  · intro m hm
    have hm : m ∈ [(⟨listOf [.sym "pscm-user"], [("%load-path", V.nil)], [], [], Option.none⟩ : Modl)] := hm
    simp only [List.mem_singleton] at hm
    subst hm
    rfl

/-- C135: whatever the number of arguments of a call, the C function of a builtin is only ever entered with the parameters it is defined with; a function of
`k` parameters is entered exactly when `k` arguments are passed.  Partial: all builtins but `current-module`; see the counterexample. -/
theorem c135_entered_partial {r : Reg} (hr : r ∈ registry) (hc : r.name ≠ "current-module") (n : Nat) :
    (∀ e ∈ entries r.name r.arity n, Suits r.params e) ∧
    ∀ k, r.params = .fixed k → r.arity ≠ -1 → entries r.name r.arity n = if n = k then [.args k] else [] := by
  have h := registry_ok r hr
  obtain ⟨nm, cf, ar, ps⟩ := r
  simp only [regOk, Bool.or_eq_true, decide_eq_true_eq] at h
  have hc : nm ≠ "current-module" := hc
  rcases h with h | h
  · exact absurd h hc
  · cases ps with
    | list =>
      simp only [beq_iff_eq] at h
      subst h
      refine ⟨fun e he => ?_, by simp⟩
      simp only [entries] at he
      split at he
      · omega
      · simp only [if_neg (show ¬ ((-2 : Int) = -1) by decide), if_true] at he
        split at he
        · cases he
        · simp only [List.mem_singleton] at he
          subst he
          trivial
    | fixed k =>
      simp only [Bool.or_eq_true, Bool.and_eq_true, beq_iff_eq, decide_eq_true_eq] at h
      rcases h with ⟨rfl, hk⟩ | ⟨rfl, rfl⟩
      · have hk : (k : Int) = 0 ∨ (k : Int) = 1 ∨ (k : Int) = 2 ∨ (k : Int) = 3 := by omega
        have he : entries nm (k : Int) n = if n = k then [.args k] else [] := by
          simp only [entries, if_pos hk]
          by_cases hnk : n = k
          · subst hnk; simp
          · rw [if_neg (by omega), if_neg hnk]
        refine ⟨fun e h => ?_, fun k' hk' _ => by cases hk'; exact he⟩
        rw [he] at h
        split at h
        · simp only [List.mem_singleton] at h
          subst h
          exact rfl
        · cases h
      · refine ⟨fun e he => ?_, fun k _ h => absurd rfl h⟩
        have he : e ∈ List.replicate n (Entered.args 2) := he
        rw [(List.mem_replicate.1 he).2]
        exact rfl

/-- C135 fails for `current-module`: its C function has a parameter, and is entered without arguments (undefined behaviour in C++; harmless as long as the
calling convention lets the function ignore the parameter, which it never reads). -/
theorem c135_current_module_fails : ∃ r ∈ registry, r.name = "current-module" ∧ r.params = .fixed 1 ∧ entries r.name r.arity 0 = [.args 0] :=
  ⟨⟨"current-module", "scm_c_current_module", 0, .fixed 1⟩, by decide +kernel, rfl, rfl, rfl⟩

/-- C135, in programs: from the initial state, a call `(name e ...)` of a builtin with `k` parameters on another number of constants is the error
`wrong-number-of-args`, and nothing else happens. -/
theorem c135_arity {r : Reg} (hr : r ∈ registry) {k : Nat} (hp : r.params = .fixed k) (ha : r.arity = k)
    (x : σ) {es : List V} (hs : ∀ e ∈ es, SelfEvaluating e) (hl : es.length ≠ k) :
    ∃ args, Evals P 0 (listOf (.sym r.name :: es)) (start x) (.stop (throwStop (start x) "wrong-number-of-args" args)) (start x) := by
  refine ⟨listOf [.bool false, .str "Wrong number of arguments to ~A", .func r.name r.arity, .bool false], ?_⟩
  have hf : formOf r.name = Option.none := by
    have hk := registry_form r hr
    simp only [Bool.or_eq_true, beq_iff_eq, Option.isNone_iff_eq_none] at hk
    rcases hk with hk | hk
    · exact hk
    · omega
  show Evals P 0 (.pair (.sym r.name) (listOf es)) _ _ _
  rw [evals_builtin (start_frame x) (start_lookup hr) hf]
  have h := registry_ok r hr
  have hn : r.name ∉ ["apply", "map", "map-in-order", "call/cc", "call-with-current-continuation"] := by
    intro hm
    have hk := registry_special r hr
    simp only [Bool.or_eq_true, Bool.not_eq_true', decide_eq_false_iff_not, beq_iff_eq] at hk
    rcases hk with hk | hk
    · exact hk hm
    · omega
  have h3 : k ≤ 3 := by
    obtain ⟨nm, cf, ar, ps⟩ := r
    have hp : ps = .fixed k := hp
    have ha : ar = k := ha
    subst hp ha
    simp only [regOk, Bool.or_eq_true, decide_eq_true_eq, Bool.and_eq_true, beq_iff_eq] at h
    rcases h with h | h | h
    · subst h
      exact absurd (registry_current _ hr rfl) (by simp; omega)
    · exact h.2
    · omega
  exact c47_arity P 0 r.name r.arity es es (start x) (start x) hn (by omega) (evalArgs_iff.1 (evalArgs_self hs _)) (by omega)

/-! ## Examples -/

/-- `car` is registered with one parameter, `list` with a list, `+` as a generic function of two. -/
example : (⟨"car", "car", 1, .fixed 1⟩ : Reg) ∈ registry ∧ entries "car" 1 2 = [] ∧ entries "car" 1 1 = [.args 1] ∧
    entries "list" (-2) 4 = [.list] ∧ entries "+" (-1) 3 = [.args 2, .args 2, .args 2] :=
  ⟨by decide +kernel, by decide, by decide, by decide, by decide⟩

/-- `(car)`, `(cons 1)` and `(cons 1 2 3)`, from the initial state. -/
example (x : σ) :
    (∃ args, Evals P 0 (listOf [.sym "car"]) (start x) (.stop (throwStop (start x) "wrong-number-of-args" args)) (start x)) ∧
    (∃ args, Evals P 0 (listOf [.sym "cons", .num 1]) (start x) (.stop (throwStop (start x) "wrong-number-of-args" args)) (start x)) ∧
    ∃ args, Evals P 0 (listOf [.sym "cons", .num 1, .num 2, .num 3]) (start x)
      (.stop (throwStop (start x) "wrong-number-of-args" args)) (start x) := by
  have h1 : (⟨"car", "car", 1, .fixed 1⟩ : Reg) ∈ registry := by decide +kernel
  have h2 : (⟨"cons", "scm_cons", 2, .fixed 2⟩ : Reg) ∈ registry := by decide +kernel
  have e0 : ∀ e ∈ ([] : List V), SelfEvaluating e := by simp
  have e1 : ∀ e ∈ ([.num 1] : List V), SelfEvaluating e := by simp [SelfEvaluating]
  have e3 : ∀ e ∈ ([.num 1, .num 2, .num 3] : List V), SelfEvaluating e := by simp [SelfEvaluating]
  exact ⟨c135_arity h1 rfl rfl x e0 (by decide), c135_arity h2 rfl rfl x e1 (by decide),
    c135_arity h2 rfl rfl x e3 (by decide)⟩

end Pscm
