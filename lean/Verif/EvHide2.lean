import Verif.EvHide
/-! # Hidden frames: every function of the evaluator -/
namespace Pscm.Ev
variable {σ α β : Type}
open EM (stop getSt modSt)

/-- The task does not mention environment `pe`. -/
def CleanT (pe : Dom) : Task → Prop
  | .eval e x => pe.D e ∧ Clean pe x
  | .expand e x => pe.D e ∧ Clean pe x
  | .doLoop e t r b st => pe.D e ∧ Clean pe t ∧ Clean pe r ∧ Clean pe b ∧ CleanEs pe st
  | .mexpand x => pe.D 0 ∧ Clean pe x

/-- What is assumed of the recursive calls. -/
structure RecOK (Q : σ → Prop) (pe : Dom) (r : Rec σ) : Prop where
  call : ∀ t, CleanT pe t → Keeps Q pe (Clean pe) (r t)
  mono : ∀ t, Mono (r t)

instance {Q : σ → Prop} {pe : Dom} {r : Rec σ} : CoeFun (RecOK Q pe r) fun _ => ∀ t, CleanT pe t → Keeps Q pe (Clean pe) (r t) :=
  ⟨RecOK.call⟩

theorem mono_handle {x : EM σ α} {f : Out α → EM σ β} (hx : Mono x) (hf : ∀ o, Mono (f o)) : Mono (EM.handle x f) :=
  simple_handle (lenRel σ) hx hf
theorem mono_stop {e : Stop} : Mono (stop e : EM σ α) := simple_stop (lenRel σ) e
theorem mono_leave {i} : Mono (leave i : EM σ Unit) := simple_leave (lenRel σ) i
theorem mono_cut {i} : Mono (cutTo i : EM σ Unit) := simple_cut (lenRel σ) i
theorem mono_pop : Mono (popCatch : EM σ Unit) := simple_pop (lenRel σ)
theorem mono_enterCatch {tag} : Mono (enterCatch tag : EM σ Nat) := ⟨by rintro s b s' ⟨⟩; exact Nat.le_refl _, by rintro s b s' ⟨⟩⟩
theorem mono_setProm {i v} : Mono (setProm i v : EM σ Unit) := by
  refine simple_mod (lenRel σ) _ fun s => ?_
  show s.frames.length ≤ _
  split <;> exact Nat.le_refl _
theorem mono_modFree {g : St σ → St σ} (h : ∀ s, (g s).frames = s.frames) : Mono (modSt g) :=
  simple_mod (lenRel σ) _ fun s => by show s.frames.length ≤ _; rw [h]; exact Nat.le_refl _
theorem mono_runHandler {r : Rec σ} {id hp hb he k a} (h : ∀ t, Mono (r t)) : Mono (runHandler r id hp hb he k a) := by
  unfold Ev.runHandler
  refine simple_bind (lenRel σ) mono_cut fun _ => simple_bind (lenRel σ) mono_pop fun _ => mono_handle (applyProcV_pr h ..) fun o => ?_
  split
  · exact simple_bind (lenRel σ) mono_leave fun _ => simple_pure (lenRel σ) _
  · split <;> exact mono_stop
  · exact mono_stop

/-- Proves `Mono` of a piece of the evaluator. -/
syntax "kmono" : tactic
macro_rules
  | `(tactic| kmono) =>
    `(tactic| ((try have hmono := RecOK.mono (by assumption)); repeat' (first
        | exact pr_pure (lenRel _).toStRel _
        | exact mono_stop
        | exact pr_getSt (lenRel _).toStRel
        | exact pr_evalError (lenRel _).toStRel _
        | exact pr_typeError (lenRel _).toStRel
        | exact pr_wrongArgs (lenRel _).toStRel _
        | exact pr_throwKey (lenRel _).toStRel _ _
        | exact pr_newEnv (lenRel _).toStRel _
        | exact pr_bindOwn (lenRel _).toStRel _ _ _
        | exact pr_bindDeep (lenRel _).toStRel _ _ _
        | exact pr_lookup (lenRel _).toStRel _ _
        | exact pr_modSt (lenRel _).toStRel _ fun _ => rel_assign (lenRel _).toStRel ..
        | exact pr_modSt (lenRel _).toStRel _ fun _ => rel_define (lenRel _).toStRel ..
        | exact pr_modSt (lenRel _).toStRel _ fun _ => rel_defineProc (lenRel _).toStRel ..
        | exact pr_modSt (lenRel _).toStRel _ fun _ => rel_defineMacro (lenRel _).toStRel ..
        | exact pr_newModEnv (lenRel _).toStRel _
        | exact pr_registerModule (lenRel _).toStRel _
        | exact mono_modFree fun _ => rfl
        | exact mono_leave | exact mono_cut | exact mono_pop | exact mono_enterCatch | exact mono_setProm
        | assumption
        | with_reducible apply hmono
        | with_reducible refine mono_handle ?_ ?_
        | with_reducible refine pr_bind (lenRel _).toStRel ?_ ?_
        | apply evalArgs_pr | apply evalSeq_pr | apply bindParams_pr | apply mono_runHandler | apply bindValues_pr
        | apply applyProc_pr | apply applyProcV_pr | apply callGuard_pr | apply callOuts_pr | apply callIns_pr | apply callPrim_pr
        | apply reducePrim_pr | apply callFunc_pr | apply expandElems_pr | apply macroCall_pr | apply expandCall_pr
        | apply bindForms_pr | apply evalLambda_pr | apply condArrow_pr | apply caseClauses_pr | apply evalCond_pr | apply dynthrow_pr
        | apply evalAnd_pr | apply evalOr_pr | apply doInit_pr | apply doSteps_pr | apply doUpdate_pr | apply mapRows_pr
        | apply evalLists_pr | apply forEachLoop_pr | apply forEachArgs_pr | apply callCC_pr | apply applyTo_pr | apply listToVec_pr
        | apply loadFile_pr | apply resolveModule_pr | apply useModules_pr | apply runOpts_pr | apply macroexpand1_pr | apply runPrim_pr
        | apply ext_pr | apply modPrim_pr
        | apply quasi_pr | apply evalForm_pr | refine (lenRel _).toStRel.withCont _ ?_
        | intro _
        | split)))

section
variable {Q : σ → Prop} {pe : Dom}

abbrev KV (Q : σ → Prop) (pe : Dom) (x : EM σ V) : Prop := Keeps Q pe (Clean pe) x
abbrev KU (Q : σ → Prop) (pe : Dom) (x : EM σ Unit) : Prop := Keeps Q pe (fun _ => True) x

theorem kp_pure {G : α → Prop} {a : α} (h : G a) : Keeps Q pe G (pure a : EM σ α) :=
  ⟨fun _ _ _ _ _ _ => rfl, by rintro s o s' hU c ⟨⟩; exact ⟨c, h⟩⟩
theorem kp_abort {G : α → Prop} : Keeps Q pe G (stop .abort : EM σ α) :=
  ⟨fun _ _ _ _ _ _ => rfl, by rintro s o s' hU c ⟨⟩; exact ⟨c, trivial⟩⟩
theorem kp_ub {G : α → Prop} : Keeps Q pe G (stop .ub : EM σ α) :=
  ⟨fun _ _ _ _ _ _ => rfl, by rintro s o s' hU c ⟨⟩; exact ⟨c, trivial⟩⟩
theorem kp_unmod {G : α → Prop} : Keeps Q pe G (stop .unmod : EM σ α) :=
  ⟨fun _ _ _ _ _ _ => rfl, by rintro s o s' hU c ⟨⟩; exact ⟨c, trivial⟩⟩
theorem kp_esc {G : α → Prop} {i v} (h : Clean pe v) : Keeps Q pe G (stop (.esc i v) : EM σ α) :=
  ⟨fun _ _ _ _ _ _ => rfl, by rintro s o s' hU c ⟨⟩; exact ⟨c, h⟩⟩
theorem kp_err {G : α → Prop} {t k v} (h : Clean pe v) : Keeps Q pe G (stop (.err t k v) : EM σ α) :=
  ⟨fun _ _ _ _ _ _ => rfl, by rintro s o s' hU c ⟨⟩; exact ⟨c, h⟩⟩
theorem kp_stop {G : α → Prop} {e : Stop} (h : GoodOut pe G (.stop e)) : Keeps Q pe G (stop e : EM σ α) :=
  ⟨fun _ _ _ _ _ _ => rfl, by rintro s o s' hU c ⟨⟩; exact ⟨c, h⟩⟩
theorem kp_diverge {G : α → Prop} : Keeps Q pe G (EM.diverge : EM σ α) :=
  ⟨fun _ _ _ _ _ _ => rfl, by rintro s o s' hU c ⟨⟩⟩

theorem good_throwStop {G : α → Prop} {s : St σ} {k a} (h : Clean pe a) : GoodOut pe G (.stop (throwStop s k a)) := by
  unfold throwStop
  split
  · exact h
  · exact h
  · trivial

theorem kp_throwKey {G : α → Prop} {k a} (h : Clean pe a) : Keeps Q pe G (throwKey k a : EM σ α) :=
  ⟨fun _ _ _ _ _ _ => rfl, by rintro s o s' hU c ⟨⟩; exact ⟨c, good_throwStop h⟩⟩
theorem kp_evalError {G : α → Prop} {m} : Keeps Q pe G (evalError m : EM σ α) := kp_throwKey (by simp [Clean])
theorem kp_typeError {G : α → Prop} : Keeps Q pe G (typeError : EM σ α) := kp_evalError
theorem kp_wrongArgs {G : α → Prop} {f} (h : Clean pe f) : Keeps Q pe G (wrongArgs f : EM σ α) :=
  kp_throwKey (by simp [listOf, Clean, h])

theorem kp_weaken {G H : α → Prop} {x : EM σ α} (h : Keeps Q pe G x) (hw : ∀ a, G a → H a) : Keeps Q pe H x :=
  ⟨h.eqv, fun s o s' hU c k => by
    obtain ⟨h1, h2⟩ := h.good s o s' hU c k
    refine ⟨h1, ?_⟩
    cases o with
    | ok a => exact hw a h2
    | stop e => cases e <;> exact h2⟩

theorem kp_bind {G : α → Prop} {H : β → Prop} {x : EM σ α} {f : α → EM σ β} (hx : Keeps Q pe G x)
    (hf : ∀ a, G a → Keeps Q pe H (f a)) (hm : ∀ a, Mono (f a) := by kmono) : Keeps Q pe H (x >>= f) := by
  constructor
  · intro hU i s es hk c
    simp only [Bind.bind, EM.bind]
    rw [hx.eqv hU i s es hk c]
    cases hxs : x s with
    | none => rfl
    | some q =>
      obtain ⟨o, s'⟩ := q
      obtain ⟨h1, h2⟩ := hx.good s o s' (hU _) c hxs
      cases o with
      | ok a => exact (hf a h2).eqv hU i s' es hk h1
      | stop e => rfl
  · intro s o s' hU c h
    simp only [Bind.bind, EM.bind] at h
    cases hxs : x s with
    | none => rw [hxs] at h; cases h
    | some q =>
      obtain ⟨o1, s1⟩ := q
      rw [hxs] at h
      cases o1 with
      | ok a =>
        obtain ⟨h1, h2⟩ := hx.good s _ s1 (pe.down _ _ ((hm a).le h) hU) c hxs
        exact (hf a h2).good s1 o s' hU h1 h
      | stop e =>
        simp only [Option.some.injEq, Prod.mk.injEq] at h
        obtain ⟨rfl, rfl⟩ := h
        obtain ⟨h1, h2⟩ := hx.good s _ s1 hU c hxs
        refine ⟨h1, ?_⟩
        cases e <;> exact h2

theorem kp_handle {G : α → Prop} {H : β → Prop} {x : EM σ α} {f : Out α → EM σ β} (hx : Keeps Q pe G x)
    (hf : ∀ o, GoodOut pe G o → Keeps Q pe H (f o)) (hm : ∀ o, Mono (f o) := by kmono) : Keeps Q pe H (EM.handle x f) := by
  constructor
  · intro hU i s es hk c
    simp only [EM.handle]
    rw [hx.eqv hU i s es hk c]
    cases hxs : x s with
    | none => rfl
    | some q =>
      obtain ⟨o, s'⟩ := q
      obtain ⟨h1, h2⟩ := hx.good s o s' (hU _) c hxs
      exact (hf o h2).eqv hU i s' es hk h1
  · intro s o s' hU c h
    simp only [EM.handle] at h
    cases hxs : x s with
    | none => rw [hxs] at h; cases h
    | some q =>
      obtain ⟨o1, s1⟩ := q
      rw [hxs] at h
      obtain ⟨h1, h2⟩ := hx.good s o1 s1 (pe.down _ _ ((hm o1).le h) hU) c hxs
      exact (hf o1 h2).good s1 o s' hU h1 h

theorem kp_modSt {g : St σ → St σ} (h : Inert Q pe g) : KU Q pe (modSt g) :=
  ⟨fun _ i s es hk c => by simp only [modSt]; rw [h.eqv i s es hk c]; rfl, by rintro s o s' hU c ⟨⟩; exact ⟨h.good s c, trivial⟩⟩

theorem kp_getSt {G : β → Prop} {f : St σ → EM σ β} (h1 : ∀ i s es, Hid pe i → CleanSt Q pe s → f (repl i es s) = f s)
    (h2 : ∀ s, CleanSt Q pe s → Keeps Q pe G (f s)) : Keeps Q pe G (getSt >>= f) := by
  constructor
  · intro hU i s es hk c
    show f (repl i es s) (repl i es s) = (f s s).map _
    rw [h1 i s es hk c]
    exact (h2 s c).eqv hU i s es hk c
  · intro s o s' hU c h
    exact (h2 s c).good s o s' hU c h

theorem kp_newEnv {p : Nat} (hp : pe.D p) : Keeps Q pe (fun e => pe.D e) (newEnv p : EM σ Nat) := by
  constructor
  · intro hU k s es hk c
    simp only [newEnv, repl_frame (hk.ne hp), repl_length]
    cases hf : s.frames[p]? with
    | none => rfl
    | some f =>
      simp only [Option.map_some, Option.some.injEq, Prod.mk.injEq, true_and]
      simp only [repl]
      congr 1
      apply List.ext_getElem?
      intro i
      have hl := c.lt
      have hlt : k < pe.L := by
        rcases Nat.lt_or_ge k pe.L with h | h
        · exact h
        · exact absurd (pe.fresh k h (hU _)) hk
      have hlen : (updFrame s.frames k fun _ => es).length = s.frames.length := updFrame_length ..
      rw [getElem?_updFrame]
      by_cases hi : i < s.frames.length
      · rw [List.getElem?_append_left (by omega), List.getElem?_append_left hi, getElem?_updFrame]
      · rw [List.getElem?_append_right (by omega), List.getElem?_append_right (by omega), hlen]
        have : i ≠ k := by omega
        simp only [this, if_false]
        cases ([⟨[], some p, f.modl⟩] : List Frame)[i - s.frames.length]? <;> rfl
  · intro s o s' hU c h
    unfold newEnv at h
    have hl := c.lt
    split at h
    · rename_i f hf
      cases h
      refine ⟨{ c with lt := by simp; omega, frames := ?_ }, pe.fresh _ hl (by simpa using hU)⟩
      intro i g hg hi
      by_cases hil : i < s.frames.length
      · simp only at hg
        rw [List.getElem?_append_left hil] at hg
        exact c.frames i g hg hi
      · simp only at hg
        rw [List.getElem?_append_right (by omega)] at hg
        have := List.mem_of_getElem? hg
        simp only [List.mem_singleton] at this
        subst this
        exact ⟨fun p hp => (by cases hp), by simpa using hp⟩
    · cases h; exact ⟨c, trivial⟩

theorem kp_newModEnv {m : Nat} (hp : pe.D 0) : Keeps Q pe (fun e => pe.D e) (newModEnv m : EM σ Nat) := by
  constructor
  · intro hU k s es hk c
    simp only [newModEnv, repl_frame (hk.ne hp), repl_length]
    cases hf : s.frames[0]? with
    | none => rfl
    | some f =>
      simp only [Option.map_some, Option.some.injEq, Prod.mk.injEq, true_and]
      simp only [repl]
      congr 1
      apply List.ext_getElem?
      intro i
      have hl := c.lt
      have hlt : k < pe.L := by
        rcases Nat.lt_or_ge k pe.L with h | h
        · exact h
        · exact absurd (pe.fresh k h (hU _)) hk
      have hlen : (updFrame s.frames k fun _ => es).length = s.frames.length := updFrame_length ..
      rw [getElem?_updFrame]
      by_cases hi : i < s.frames.length
      · rw [List.getElem?_append_left (by omega), List.getElem?_append_left hi, getElem?_updFrame]
      · rw [List.getElem?_append_right (by omega), List.getElem?_append_right (by omega), hlen]
        have : i ≠ k := by omega
        simp only [this, if_false]
        cases ([⟨[], some 0, some m⟩] : List Frame)[i - s.frames.length]? <;> rfl
  · intro s o s' hU c h
    unfold newModEnv at h
    have hl := c.lt
    split at h
    · rename_i f hf
      cases h
      refine ⟨{ c with lt := by simp; omega, frames := ?_ }, pe.fresh _ hl (by simpa using hU)⟩
      intro i g hg hi
      by_cases hil : i < s.frames.length
      · simp only at hg
        rw [List.getElem?_append_left hil] at hg
        exact c.frames i g hg hi
      · simp only at hg
        rw [List.getElem?_append_right (by omega)] at hg
        have := List.mem_of_getElem? hg
        simp only [List.mem_singleton] at this
        subst this
        exact ⟨fun p hp => (by cases hp), by simpa using hp⟩
    · cases h; exact ⟨c, trivial⟩

theorem kp_registerModule {n : V} : Keeps Q pe (fun _ => True) (registerModule n : EM σ Nat) := by
  constructor
  · intro _ k s es _ c
    simp only [registerModule]
    have : (repl k es s).mods = s.mods := rfl
    rw [this]
    cases findByName s.mods n <;> rfl
  · intro s o s' hU c h
    unfold registerModule at h
    split at h
    · cases h; exact ⟨c, trivial⟩
    · cases h
      refine ⟨{ c with mods := ?_ }, trivial⟩
      intro m hm
      rcases List.mem_append.1 hm with hm | hm
      · exact c.mods m hm
      · simp only [List.mem_singleton] at hm; subst hm; intro p hp; cases hp

theorem kp_use {m u} : KU Q pe (modSt fun s => { s with mods := useModule s.mods m u } : EM σ Unit) :=
  kp_modSt (inert_mods (g := fun ms _ _ => useModule ms m u) fun _ _ _ hm => cleanMods_use hm)

theorem kp_export {m x} : KU Q pe (modSt fun s => { s with mods := exportSym s.mods s.root m x } : EM σ Unit) :=
  kp_modSt (inert_mods (g := fun ms _ r => exportSym ms r m x) fun _ _ _ hm => cleanMods_export hm)

theorem kp_bindOwn {e x v} (h : pe.D e) (hv : Clean pe v) : KU Q pe (bindOwn e x v : EM σ Unit) := kp_modSt (inert_insertOwn h hv)
theorem kp_bindDeep {e x v} (h : pe.D e) (hv : Clean pe v) : KU Q pe (bindDeep e x v : EM σ Unit) := kp_modSt (inert_insertDeep h hv)

theorem kp_lookup {e x} (h : pe.D e) : KV Q pe (lookupSymbol e x : EM σ V) := by
  unfold lookupSymbol
  refine kp_getSt ?_ ?_
  · intro i s es hk c; simp only [repl_envSearch c hk e h]
  · intro s c
    cases hs : envSearch s e x with
    | some v => exact kp_pure (clean_envSearch c h hs)
    | none => exact kp_evalError

theorem kp_delay {e x} (h : pe.D e) (hx : Clean pe x) : KV Q pe (evalDelay e x : EM σ V) := by
  unfold evalDelay
  cases hu : uncons x with
  | none => exact kp_evalError
  | some q =>
    obtain ⟨a, d⟩ := q
    refine ⟨fun _ _ _ _ _ _ => rfl, ?_⟩
    rintro s o s' hU c ⟨⟩
    refine ⟨{ c with proms := ?_ }, trivial⟩
    intro p hp
    rcases List.mem_append.1 hp with hp | hp
    · exact c.proms p hp
    · simp only [List.mem_singleton] at hp; subst hp; exact ⟨h, (clean_uncons hx hu).1, by simp⟩

theorem kp_leave {i} : KU Q pe (leave i : EM σ Unit) := kp_modSt ⟨fun _ _ _ _ _ => rfl, fun _ c => { c with }⟩
theorem kp_cutTo {i} : KU Q pe (cutTo i : EM σ Unit) := kp_modSt ⟨fun _ _ _ _ _ => rfl, fun _ c => { c with }⟩
theorem kp_popCatch : KU Q pe (popCatch : EM σ Unit) := kp_modSt ⟨fun _ _ _ _ _ => rfl, fun _ c => { c with }⟩
theorem kp_setCur {m} : KU Q pe (modSt fun s => { s with cur := m } : EM σ Unit) := kp_modSt ⟨fun _ _ _ _ _ => rfl, fun _ c => { c with }⟩

theorem kp_setProm {i v} (hv : Clean pe v) : KU Q pe (setProm i v : EM σ Unit) := by
  refine kp_modSt ⟨?_, ?_⟩
  · intro k s es _ c
    have : (repl k es s).proms = s.proms := rfl
    rw [this]
    cases s.proms[i]? <;> rfl
  · intro s c
    cases hp : s.proms[i]? with
    | none => exact c
    | some p =>
      refine { c with proms := ?_ }
      intro q hq
      rcases List.mem_or_eq_of_mem_set hq with h | rfl
      · exact c.proms q h
      · obtain ⟨h1, h2, _⟩ := c.proms p (List.mem_of_getElem? hp)
        exact ⟨h1, h2, by simpa using hv⟩

/-! ## The evaluator -/

theorem cl_pair {a d} : Clean pe (.pair a d) ↔ Clean pe a ∧ Clean pe d := Iff.rfl
theorem cl_lambda {a b} (ha : Clean pe a) (hb : Clean pe b) : Clean pe (lambdaExpr a b) := ⟨trivial, ha, hb⟩

theorem clean_splitParams {v} (h : Clean pe v) : CleanL pe (splitParams v).1 := by
  induction v with
  | pair a d _ ih => exact .cons h.1 (ih h.2)
  | nil => exact .nil
  | sym => exact .nil
  | _ => simp only [splitParams]; exact .cons h .nil

variable {r : Rec σ} (h : RecOK Q pe r)
include h

theorem evalArgs_kp {e : EnvId} {xs : List V} (he : pe.D e) (hx : CleanL pe xs) : Keeps Q pe (CleanL pe) (evalArgs r e xs) := by
  induction xs with
  | nil => exact kp_pure .nil
  | cons x xs ih =>
    exact kp_bind (h (.eval e x) ⟨he, hx.head⟩) fun v hv => kp_bind (ih hx.tail) fun vs hvs => kp_pure (.cons hv hvs)

theorem evalSeq_kp {e : EnvId} {xs : List V} (he : pe.D e) (hx : CleanL pe xs) : KV Q pe (evalSeq r e xs) := by
  induction xs with
  | nil => exact kp_abort
  | cons x xs ih =>
    cases xs with
    | nil => exact h (.eval e x) ⟨he, hx.head⟩
    | cons y ys => exact kp_bind (h (.eval e x) ⟨he, hx.head⟩) fun v hv => ih hx.tail

theorem bindParams_kp {env qe : EnvId} {ps : List V} {q : Option Name} {xs : List V} (he : pe.D env) (hq : pe.D qe)
    (hx : CleanL pe xs) : KU Q pe (bindParams r env qe ps q xs) := by
  fun_induction bindParams r env qe ps q xs with
  | case1 => exact kp_bind (evalArgs_kp h he hx) fun vs hvs => kp_bindOwn hq (clean_listOf.2 hvs)
  | case2 => exact kp_pure trivial
  | case3 => exact kp_evalError
  | case4 => exact kp_evalError
  | case5 => exact kp_pure trivial
  | case6 x ps r' a as ih =>
    exact kp_bind (h (.eval env a) ⟨he, hx.head⟩) fun v hv => kp_bind (kp_bindOwn hq hv) fun _ _ => ih hx.tail
  | case7 => exact kp_evalError

theorem applyProc_kp {env : EnvId} {p b : V} {qe : EnvId} {xs : List V} (he : pe.D env) (hb : Clean pe b)
    (hq : pe.D qe) (hx : CleanL pe xs) : KV Q pe (applyProc r env p b qe xs) :=
  kp_bind (kp_newEnv hq) fun _ hn => kp_bind (bindParams_kp h he hn hx) fun _ _ => evalSeq_kp h hn (clean_nodes hb)

omit h in
theorem bindValues_kp {qe : EnvId} {ps : List V} {q : Option Name} {xs : List V} (hq : pe.D qe) (hx : CleanL pe xs) :
    KU Q pe (bindValues (σ := σ) qe ps q xs) := by
  fun_induction bindValues (σ := σ) qe ps q xs with
  | case1 => exact kp_bindOwn hq (clean_listOf.2 hx)
  | case2 => exact kp_pure trivial
  | case4 x ps r' v vs ih => exact kp_bind (kp_bindOwn hq hx.head) fun _ _ => ih hx.tail
  | case3 => exact kp_evalError
  | case5 => exact kp_evalError
  | case6 => exact kp_evalError

theorem applyProcV_kp {p b : V} {qe : EnvId} {xs : List V} (hb : Clean pe b) (hq : pe.D qe) (hx : CleanL pe xs) :
    KV Q pe (applyProcV r p b qe xs) :=
  kp_bind (kp_newEnv hq) fun _ hn => kp_bind (bindValues_kp hn hx) fun _ _ => evalSeq_kp h hn (clean_nodes hb)

theorem force_kp {id : Nat} : KV Q pe (force r id) := by
  unfold force
  refine kp_getSt (fun _ _ _ _ _ => rfl) ?_
  intro s c
  cases hp : s.proms[id]? with
  | none => exact kp_ub
  | some p =>
    obtain ⟨h1, h2, h3⟩ := c.proms p (List.mem_of_getElem? hp)
    simp only
    cases hv : p.val with
    | some v => exact kp_pure (h3 v hv)
    | none =>
      refine kp_bind (applyProc_kp h h1 ⟨h2, trivial⟩ h1 .nil) fun v hv => ?_
      refine kp_getSt (fun _ _ _ _ _ => rfl) ?_
      intro s' c'
      cases hpv : promVal s' id with
      | some w =>
        refine kp_pure ?_
        unfold promVal at hpv
        split at hpv
        · rename_i p' hp'; exact (c'.proms p' (List.mem_of_getElem? hp')).2.2 w hpv
        · cases hpv
      | none => exact kp_bind (kp_setProm hv) fun _ _ => kp_pure hv

omit h in
theorem clean_handlerArgs {k a} (ha : Clean pe a) : CleanL pe (handlerArgs k a) := by
  unfold handlerArgs
  cases a <;> first | exact .cons trivial (clean_nodes ha) | exact .cons trivial (.cons ha .nil)

omit h in
theorem kp_enterCatch {tag} : Keeps Q pe (fun _ => True) (enterCatch tag : EM σ Nat) :=
  ⟨fun _ _ _ _ _ _ => rfl, by rintro s o s' hU c ⟨⟩; exact ⟨{ c with }, trivial⟩⟩

theorem runHandler_kp {id hp hb he k a} (h3 : Clean pe hb) (h4 : pe.D he) (ha : Clean pe a) :
    KV Q pe (runHandler r id hp hb he k a) := by
  unfold runHandler
  refine kp_bind kp_cutTo fun _ _ => kp_bind kp_popCatch fun _ _ => kp_handle (applyProcV_kp h h3 h4 (clean_handlerArgs ha)) fun o ho => ?_
  split
  · exact kp_bind kp_leave fun _ _ => kp_pure ho
  · split
    · exact kp_unmod
    · exact kp_err ho
  · rename_i e _
    refine kp_stop ?_
    cases e <;> exact ho

theorem runCatch_kp {tag tp tb te hp hb he} (h1 : Clean pe tb) (h2 : pe.D te) (h3 : Clean pe hb)
    (h4 : pe.D he) : KV Q pe (runCatch r tag tp tb te hp hb he) := by
  unfold runCatch
  refine kp_getSt (fun _ _ _ _ _ => rfl) ?_
  intro s c
  split
  · exact kp_evalError
  · refine kp_bind kp_enterCatch fun id _ => ?_
    refine kp_handle (applyProc_kp h h2 h1 h2 .nil) fun o ho => ?_
    split
    · exact kp_bind kp_popCatch fun _ _ => kp_bind kp_leave fun _ _ => kp_pure ho
    · split
      · exact runHandler_kp h h3 h4 ho
      · exact kp_err ho
    · rename_i e _
      refine kp_stop ?_
      cases e <;> exact ho

theorem catchPrim_kp {xs : List V} (hx : CleanL pe xs) : KV Q pe (catchPrim r xs) := by
  unfold catchPrim
  split
  · rename_i tag thunk handler rest
    simp only [cleanL_cons] at hx
    split <;> simp only [if_true, Bool.false_eq_true, if_false]
    · split
      · obtain ⟨_, h1, h2, _⟩ := hx
        exact runCatch_kp h h1.2.1 h1.2.2 h2.2.1 h2.2.2
      · exact kp_evalError
    · split
      · obtain ⟨_, h1, h2, _⟩ := hx
        exact runCatch_kp h h1.2.1 h1.2.2 h2.2.1 h2.2.2
      · exact kp_evalError
    · exact kp_evalError
  · exact kp_evalError

omit h in
theorem throwPrim_kp {xs : List V} (hx : CleanL pe xs) : KV Q pe (throwPrim (σ := σ) xs) := by
  unfold throwPrim
  split
  · exact kp_evalError
  · exact kp_throwKey (clean_listOf.2 hx.tail)
  · exact kp_evalError

omit h in
theorem withCont_kp {k : V → EM σ V} (hk : ∀ i, KV Q pe (k (.cont i))) (hkm : ∀ v, Mono (k v) := by kmono) : KV Q pe (withCont k) := by
  unfold withCont
  refine kp_getSt (fun _ _ _ _ _ => rfl) ?_
  intro s c
  have hk' : Mono (k (.cont s.next)) := hkm _
  refine kp_bind (kp_modSt ⟨fun _ _ _ _ _ => rfl, ?_⟩) fun _ _ => ?_
  · intro s' c'
    refine { c' with conts := ?_ }
    intro ci hci
    rcases List.mem_cons.1 hci with rfl | hci
    · exact c'.winds
    · exact c'.conts ci hci
  · refine kp_handle (hk _) fun o ho => ?_
    split
    · exact kp_bind kp_leave fun _ _ => kp_pure ho
    · split
      · exact kp_bind kp_leave fun _ _ => kp_bind kp_setCur fun _ _ => kp_pure ho
      · exact kp_esc ho
    · rename_i e _
      refine kp_stop ?_
      cases e <;> exact ho

def CleanW (pe : Dom) (ws : List Wind) : Prop := ∀ w ∈ ws, Clean pe w.inG ∧ Clean pe w.outG

theorem callGuard_kp {g : V} (h0 : pe.D 0) (hg : Clean pe g) : KU Q pe (callGuard r g) := by
  unfold callGuard
  split
  · exact kp_bind (applyProc_kp h h0 hg.2.1 hg.2.2 .nil) fun _ _ => kp_pure trivial
  · exact kp_pure trivial

theorem callOuts_kp {ws : List Wind} (h0 : pe.D 0) (hw : CleanW pe ws) : KU Q pe (callOuts r ws) := by
  induction ws with
  | nil => exact kp_pure trivial
  | cons w ws ih =>
    exact kp_bind (callGuard_kp h h0 (hw w List.mem_cons_self).2) fun _ _ => ih fun x hx => hw x (List.mem_cons_of_mem _ hx)

theorem callIns_kp {ws : List Wind} (h0 : pe.D 0) (hw : CleanW pe ws) : KU Q pe (callIns r ws) := by
  induction ws with
  | nil => exact kp_pure trivial
  | cons w ws ih =>
    refine kp_bind (callGuard_kp h h0 (hw w List.mem_cons_self).1) fun _ _ => kp_bind (kp_modSt ⟨fun _ _ _ _ _ => rfl, ?_⟩)
      fun _ _ => ih fun x hx => hw x (List.mem_cons_of_mem _ hx)
    intro s c
    refine { c with winds := ?_ }
    intro x hx
    rcases List.mem_cons.1 hx with rfl | hx
    · exact hw _ List.mem_cons_self
    · exact c.winds x hx

omit h in
theorem commonPrefix_mem {as bs : List Wind} {w} (hw : w ∈ commonPrefix as bs) : w ∈ as := by
  induction as generalizing bs with
  | nil => simp [commonPrefix] at hw
  | cons a as ih =>
    cases bs with
    | nil => simp [commonPrefix] at hw
    | cons b bs =>
      simp only [commonPrefix] at hw
      split at hw
      · rcases List.mem_cons.1 hw with rfl | hw
        · exact List.mem_cons_self
        · exact List.mem_cons_of_mem _ (ih hw)
      · cases hw

theorem switchWinds_kp {ws : List Wind} (h0 : pe.D 0) (hw : CleanW pe ws) : KU Q pe (switchWinds r ws) := by
  unfold switchWinds
  refine kp_getSt (fun _ _ _ _ _ => rfl) ?_
  intro s c
  refine kp_bind (callOuts_kp h h0 ?_) fun _ _ => kp_bind (kp_modSt ⟨fun _ _ _ _ _ => rfl, ?_⟩) fun _ _ => callIns_kp h h0 ?_
  · intro w hw'
    exact c.winds w ((List.takeWhile_sublist _).subset (List.mem_reverse.1 hw'))
  · intro s' c'
    exact { c' with winds := fun w hw' => c.winds w (commonPrefix_mem hw') }
  · intro w hw'
    exact hw w ((List.drop_sublist _ _).subset (List.mem_reverse.1 hw'))

omit h in
theorem zero_ne {s : St σ} (c : CleanSt Q pe s) : pe.D 0 := c.pos

theorem dynthrow_kp {id : Nat} {v : V} (hv : Clean pe v) : KV Q pe (dynthrow r id v) := by
  unfold dynthrow
  refine kp_getSt (fun _ _ _ _ _ => rfl) ?_
  intro s c
  cases hc : contInfo s id with
  | none => exact kp_ub
  | some ci =>
    have hmem : ci ∈ s.conts := List.mem_of_find?_eq_some hc
    refine kp_bind (switchWinds_kp h (zero_ne c) (c.conts ci hmem)) fun _ _ => kp_getSt (fun _ _ _ _ _ => rfl) ?_
    intro s' c'
    split
    · exact kp_esc hv
    · exact kp_unmod

omit h in
theorem bindForms_kp {qe : EnvId} {ps : List V} {q : Option Name} {xs : List V} (hq : pe.D qe) (hx : CleanL pe xs) :
    KU Q pe (bindForms (σ := σ) qe ps q xs) := by
  fun_induction bindForms (σ := σ) qe ps q xs with
  | case1 => exact kp_bindOwn hq (clean_listOf.2 hx)
  | case2 => exact kp_pure trivial
  | case3 => exact kp_evalError
  | case4 => exact kp_evalError
  | case5 => exact kp_pure trivial
  | case6 x ps r' v vs ih => exact kp_bind (kp_bindOwn hq hx.head) fun _ _ => ih hx.tail
  | case7 => exact kp_abort
  | case8 => exact kp_evalError

theorem expandCall_kp {p b : V} {me : EnvId} {xs : List V} (hb : Clean pe b) (hq : pe.D me) (hx : CleanL pe xs) :
    KV Q pe (expandCall r p b me xs) :=
  kp_bind (kp_newEnv hq) fun _ hn => kp_bind (bindForms_kp hn hx) fun _ _ => evalSeq_kp h hn (clean_nodes hb)

theorem macroexpand1_kp {x : V} (h0 : pe.D 0) (hx : Clean pe x) :
    Keeps Q pe (fun o => ∀ v, o = some v → Clean pe v) (macroexpand1 r x) := by
  unfold macroexpand1
  split
  · rename_i y rest
    refine kp_getSt ?_ ?_
    · intro i s es hk c; simp only [repl_envSearch c hk 0 h0]
    · intro s c
      split
      · rename_i ps b me hl
        have hm := clean_envSearch c h0 hl
        refine kp_bind (expandCall_kp h hm.2.1 hm.2.2 (clean_nodes hx.2)) fun v hv => kp_pure ?_
        rintro w ⟨⟩; exact hv
      · exact kp_pure fun _ hh => by cases hh
  · exact kp_pure fun _ hh => by cases hh

theorem macroexpandLoop_kp {x : V} (h0 : pe.D 0) (hx : Clean pe x) : KV Q pe (macroexpandLoop r x) := by
  unfold macroexpandLoop
  refine kp_bind (macroexpand1_kp h h0 hx) fun o ho => ?_
  split
  · exact kp_pure hx
  · split
    · exact kp_unmod
    · exact h (.mexpand _) ⟨h0, ho _ rfl⟩

variable {P : Prims σ} (hP : Honest Q pe P)
include hP

theorem loadFile_kp {e : EnvId} {f : String} (he : pe.D e) : KV Q pe (loadFile P r e f) := by
  unfold loadFile
  refine kp_getSt (fun _ _ _ _ _ => rfl) ?_
  intro s c
  split
  · exact kp_evalError
  · exact kp_evalError
  · exact kp_evalError
  · rename_i x xs hx
    exact evalSeq_kp h he (hP.file _ _ _ c.ext hx)

theorem resolveModule_kp {n : V} (h0 : pe.D 0) : Keeps Q pe (fun _ => True) (resolveModule P r n) := by
  unfold resolveModule
  refine kp_getSt (fun _ _ _ _ _ => rfl) ?_
  intro s c
  refine kp_bind kp_registerModule fun m _ => ?_
  split
  · exact kp_pure trivial
  · split
    · exact kp_pure trivial
    · exact kp_bind (kp_newModEnv h0) fun e he => kp_bind kp_setCur fun _ _ => kp_bind (loadFile_kp h hP he) fun _ _ =>
        kp_bind kp_setCur fun _ _ => kp_pure trivial

theorem useModules_kp {m : Nat} {xs : List V} (h0 : pe.D 0) : KV Q pe (useModules P r m xs) := by
  fun_induction useModules P r m xs with
  | case1 => exact kp_pure trivial
  | case2 a d xs ih => exact kp_bind (resolveModule_kp h hP h0) fun u _ => kp_bind kp_use fun _ _ => ih
  | case3 x xs _ ih => exact ih

theorem runOpts_kp {m : Nat} {os : List ModOpt} (h0 : pe.D 0) : KU Q pe (runOpts P r m os) := by
  fun_induction runOpts P r m os with
  | case1 => exact kp_pure trivial
  | case2 n os ih => exact kp_bind (resolveModule_kp h hP h0) fun u _ => kp_bind kp_use fun _ _ => ih
  | case3 x os ih => exact kp_bind kp_export fun _ _ => ih
  | case4 => exact kp_unmod

theorem evalDefineModule_kp {x : V} (h0 : pe.D 0) : KV Q pe (evalDefineModule P r x) := by
  unfold evalDefineModule
  split
  · exact kp_bind kp_registerModule fun m _ => kp_bind (runOpts_kp h hP h0) fun _ _ => kp_bind kp_setCur fun _ _ => kp_pure trivial
  · exact kp_evalError

theorem modPrim_kp {n : Name} {xs : List V} (h0 : pe.D 0) (hx : CleanL pe xs) : KV Q pe (modPrim P r n xs) := by
  unfold modPrim
  refine kp_getSt ?_ ?_
  · intro i s es hk c
    have h1 : ∀ x, lookChain (repl i es s).frames 0 x = lookChain s.frames 0 x := by
      intro x
      unfold lookChain
      rw [repl_findFrame c hk _ _ h0]
      cases hf : findFrame s.frames x (0 + 1) 0 with
      | none => rfl
      | some i => exact repl_own (hk.ne (findFrame_ne c _ _ _ h0 hf))
    simp only [isDefined, h1]
    rfl
  intro s c
  split
  · exact kp_pure trivial
  · exact kp_bind kp_setCur fun _ _ => kp_pure trivial
  · split
    · exact kp_pure trivial
    · split
      · rename_i v hv; exact kp_pure (clean_search c hv)
      · split
        · simp only [cleanL_cons] at hx; exact kp_pure hx.2.2.1
        · exact kp_evalError
  · exact kp_pure trivial
  · exact kp_bind kp_use fun _ _ => kp_pure trivial
  · exact kp_bind (resolveModule_kp h hP h0) fun u _ => kp_bind kp_use fun _ _ => kp_pure trivial
  · exact kp_bind (resolveModule_kp h hP h0) fun u _ => kp_pure trivial
  · exact kp_pure trivial
  · exact kp_pure trivial
  · exact kp_pure trivial
  · exact kp_evalError

omit hP in
theorem runPrim_kp {t : PrimRes σ} (h0 : pe.D 0) (ht : HonestRes Q pe t) : KV Q pe (runPrim r t) := by
  induction t with
  | done o x =>
    cases o with
    | ok v => exact ⟨fun _ _ _ _ _ _ => rfl, by rintro s o s' hU c ⟨⟩; exact ⟨{ c with ext := ht.1 }, ht.2⟩⟩
    | raise k a => exact ⟨fun _ _ _ _ _ _ => rfl, by rintro s o s' hU c ⟨⟩; exact ⟨{ c with ext := ht.1 }, good_throwStop ht.2⟩⟩
    | abort => exact ⟨fun _ _ _ _ _ _ => rfl, by rintro s o s' hU c ⟨⟩; exact ⟨{ c with ext := ht }, trivial⟩⟩
    | ub => exact ⟨fun _ _ _ _ _ _ => rfl, by rintro s o s' hU c ⟨⟩; exact ⟨{ c with ext := ht }, trivial⟩⟩
  | eval e x k ih =>
    obtain ⟨h1, h2, h3⟩ := ht
    refine kp_bind (kp_modSt ⟨fun _ _ _ _ _ => rfl, fun s c => { c with ext := h1 }⟩) fun _ _ => kp_bind (h (.eval 0 e) ⟨h0, h2⟩) fun v hv =>
      kp_getSt (fun _ _ _ _ _ => rfl) fun s c => ?_
    exact ih v s.ext (h3 v s.ext hv c.ext)

theorem ext_kp {n : Name} {xs : List V} (h0 : pe.D 0) (hx : CleanL pe xs) : KV Q pe (extPrim P r n xs) :=
  kp_getSt (fun _ _ _ _ _ => rfl) fun s c => runPrim_kp h h0 (hP.call n xs s.ext hx c.ext)

theorem callPrim_kp {n : Name} {xs : List V} (h0 : pe.D 0) (hx : CleanL pe xs) : KV Q pe (callPrim P r n xs) := by
  unfold callPrim
  split
  · exact kp_pure (clean_listOf.2 hx)
  split
  · split
    · exact force_kp h
    · exact kp_typeError
  split
  · exact catchPrim_kp h hx
  split
  · exact throwPrim_kp hx
  split
  · split
    · exact h (.eval 0 _) ⟨h0, hx.head⟩
    · exact kp_ub
  split
  · split
    · exact loadFile_kp h hP h0
    · exact kp_evalError
  split
  · split
    · refine kp_bind (macroexpand1_kp h h0 hx.head) fun o ho => kp_pure ?_
      cases o with
      | none => exact hx.head
      | some v => exact ho v rfl
    · exact kp_ub
  split
  · split
    · exact h (.mexpand _) ⟨h0, hx.head⟩
    · exact kp_ub
  split
  · exact modPrim_kp h hP h0 hx
  split
  · exact kp_unmod
  · exact ext_kp h hP h0 hx

theorem reducePrim_kp {n : Name} {a : V} {xs : List V} (h0 : pe.D 0) (ha : Clean pe a) (hx : CleanL pe xs) :
    KV Q pe (reducePrim P r n a xs) := by
  induction xs generalizing a with
  | nil => exact kp_pure ha
  | cons x xs ih =>
    exact kp_bind (callPrim_kp h hP h0 (.cons ha (.cons hx.head .nil))) fun v hv => ih hv hx.tail

theorem callFunc_kp {n : Name} {a : Int} {xs : List V} (h0 : pe.D 0) (hx : CleanL pe xs) : KV Q pe (callFunc P r n a xs) := by
  unfold callFunc
  split
  · split
    · exact callPrim_kp h hP h0 hx
    · exact kp_wrongArgs trivial
  · split
    · exact reducePrim_kp h hP h0 (hP.init n) hx
    · split
      · split
        · exact kp_evalError
        · split
          · exact kp_evalError
          · exact callPrim_kp h hP h0 hx
      · exact kp_evalError

omit h hP

theorem evalLambda_kp {env : EnvId} {x : V} (he : pe.D env) (hx : Clean pe x) : KV Q pe (evalLambda (σ := σ) env x) := by
  unfold evalLambda
  split
  · exact kp_ub
  · rename_i params body hu
    obtain ⟨h1, h2⟩ := clean_uncons hx hu
    split
    · exact kp_pure ⟨h1, clean_mkBody h2, he⟩
    · exact kp_pure ⟨h1, clean_mkBody h2, he⟩
    · exact kp_pure ⟨h1, clean_mkBody h2, he⟩
    · exact kp_typeError

theorem clean_curry {k b f a b'} (hk : Clean pe k) (hb : Clean pe b) (hc : curry k b = some (f, a, b')) :
    Clean pe a ∧ Clean pe b' := by
  induction k generalizing b with
  | pair x d ih _ =>
    cases x with
    | sym y => simp only [curry, Option.some.injEq, Prod.mk.injEq] at hc; obtain ⟨_, rfl, rfl⟩ := hc; exact ⟨hk.2, hb⟩
    | _ => exact ih hk.1 (b := .pair (lambdaExpr d b) .nil) ⟨cl_lambda hk.2 hb, trivial⟩ hc
  | _ => simp [curry] at hc

include h

theorem evalDefine_kp {env : EnvId} {x : V} (he : pe.D env) (hx : Clean pe x) : KV Q pe (evalDefine r env x) := by
  unfold evalDefine
  split
  · exact kp_ub
  · rename_i y more hu
    obtain ⟨h1, h2⟩ := clean_uncons hx hu
    split
    · exact kp_evalError
    · rename_i e _ hu2
      exact kp_bind (h (.eval env e) ⟨he, (clean_uncons h2 hu2).1⟩) fun v hv => kp_bind (kp_modSt (inert_define he hv)) fun _ _ =>
        kp_pure trivial
  · exact kp_ub
  · rename_i key body _ _ hu
    obtain ⟨h1, h2⟩ := clean_uncons hx hu
    split
    · exact kp_evalError
    · rename_i f args b hc
      obtain ⟨h3, h4⟩ := clean_curry h1 h2 hc
      exact kp_bind (evalLambda_kp he ⟨h3, h4⟩) fun v hv => kp_bind (kp_modSt (inert_defineProc hv)) fun _ _ => kp_pure trivial

theorem evalSet_kp {env : EnvId} {x : V} (he : pe.D env) (hx : Clean pe x) : KV Q pe (evalSet r env x) := by
  unfold evalSet
  split
  · rename_i y more hu
    obtain ⟨h1, h2⟩ := clean_uncons hx hu
    split
    · exact kp_ub
    · rename_i e _ hu2
      exact kp_bind (h (.eval env e) ⟨he, (clean_uncons h2 hu2).1⟩) fun v hv => kp_bind (kp_modSt (inert_assign he hv)) fun _ _ =>
        kp_pure trivial
  · exact kp_abort

omit h in
theorem clean_macroParams {v} (hv : Clean pe v) : Clean pe (macroParams v) := by
  unfold macroParams
  split
  · trivial
  · exact hv

theorem evalDefineMacro_kp {env : EnvId} {x : V} (he : pe.D env) (hx : Clean pe x) : KV Q pe (evalDefineMacro r env x) := by
  unfold evalDefineMacro
  split
  · exact kp_evalError
  · rename_i y more hu
    obtain ⟨h1, h2⟩ := clean_uncons hx hu
    split
    · exact kp_evalError
    · rename_i e _ hu2
      refine kp_bind (h (.eval env e) ⟨he, (clean_uncons h2 hu2).1⟩) fun v hv => ?_
      split
      · exact kp_bind (kp_modSt (inert_defineMacro he ⟨hv.1, hv.2.1, he⟩)) fun _ _ => kp_pure trivial
      · exact kp_evalError
  · rename_i y args body hu
    obtain ⟨h1, h2⟩ := clean_uncons hx hu
    exact kp_bind (kp_modSt (inert_defineMacro he ⟨clean_macroParams h1.2, clean_mkBody h2, he⟩)) fun _ _ => kp_pure trivial
  · exact kp_evalError

theorem expandElems_kp {env : EnvId} {x : V} (he : pe.D env) (hx : Clean pe x) : KV Q pe (expandElems r env x) := by
  induction x with
  | pair a d _ ih =>
    exact kp_bind (h (.expand env a) ⟨he, hx.1⟩) fun a' ha => kp_bind (ih hx.2) fun d' hd => kp_pure ⟨ha, hd⟩
  | nil => exact kp_pure trivial
  | _ => exact h (.expand env _) ⟨he, hx⟩

theorem expandMacros_kp {env : EnvId} {x : V} (he : pe.D env) (hx : Clean pe x) : KV Q pe (expandMacros r env x) := by
  unfold expandMacros
  split
  · rename_i y rest
    refine kp_getSt ?_ ?_
    · intro i s es hk c; simp only [repl_own (hk.ne he)]
    · intro s c
      split
      · rename_i ps b me hl
        have hm := clean_own c he hl
        exact kp_bind (expandCall_kp h hm.2.1 hm.2.2 (clean_nodes hx.2)) fun v hv => h (.expand env v) ⟨he, hv⟩
      · exact expandElems_kp h he hx
  · exact expandElems_kp h he hx
  · exact kp_pure hx

theorem macroCall_kp {env : EnvId} {p b : V} {me : EnvId} {x : V} (he : pe.D env) (hb : Clean pe b) (hq : pe.D me)
    (hx : Clean pe x) : KV Q pe (macroCall r env p b me x) := by
  refine kp_bind (expandCall_kp h hb hq (clean_nodes hx)) fun v hv => kp_bind (h (.expand env v) ⟨he, hv⟩) fun w hw => ?_
  split
  · split
    · exact kp_pure hw.1
    · exact h (.eval env _) ⟨he, hw⟩
  · exact kp_pure hw

omit h

theorem clean_letBindings {bs : List V} {xs es} (hb : CleanL pe bs) (hl : letBindings bs = some (xs, es)) :
    CleanL pe xs ∧ CleanL pe es := by
  induction bs generalizing xs es with
  | nil => cases hl; exact ⟨.nil, .nil⟩
  | cons b bs ih =>
    have hh := hb.head
    unfold letBindings at hl
    split at hl
    · cases hl; exact ⟨.nil, .nil⟩
    · rename_i x e rest bs' heq
      cases heq
      split at hl
      · rename_i xs' es' hl'
        cases hl
        obtain ⟨h1, h2⟩ := ih hb.tail hl'
        exact ⟨.cons hh.1 h1, .cons hh.2.1 h2⟩
      · cases hl
    · cases hl

theorem clean_tempBindings {i : Nat} {es : List V} (hx : CleanL pe es) : CleanL pe (tempBindings i es) := by
  induction es generalizing i with
  | nil => exact .nil
  | cons e es ih => exact .cons (by simp [listOf, Clean, hx.head]) (ih hx.tail)

theorem clean_tempSyms {i : Nat} {es : List V} : CleanL pe (tempSyms i es) := by
  induction es generalizing i with
  | nil => exact .nil
  | cons e es ih => exact .cons trivial ih

theorem expandLet_kp {x : V} (hx : Clean pe x) : KV Q pe (expandLet (σ := σ) x) := by
  unfold expandLet
  split
  · split
    · exact kp_abort
    · exact kp_pure ⟨cl_lambda trivial hx.2, trivial⟩
  · split
    · rename_i name bindings body _
      obtain ⟨_, hb, hbody, _⟩ := hx
      split
      · refine kp_pure ?_
        simp [listOf, Clean, hbody]
      · split
        · exact kp_abort
        · rename_i xs es hl
          obtain ⟨h1, h2⟩ := clean_letBindings (clean_nodes hb) hl
          refine kp_pure ?_
          simp [listOf, Clean, hbody, clean_listOf, clean_tempBindings h2, clean_tempSyms, h1]
      · exact kp_evalError
    · exact kp_abort
  · split
    · exact kp_abort
    · split
      · split
        · exact kp_abort
        · rename_i xs es hl
          obtain ⟨h1, h2⟩ := clean_letBindings (clean_nodes hx.1) hl
          exact kp_pure ⟨cl_lambda (clean_listOf.2 h1) hx.2, clean_listOf.2 h2⟩
      · exact kp_abort
  · exact kp_abort

theorem expandLetStar_kp {x : V} (hx : Clean pe x) : KV Q pe (expandLetStar (σ := σ) x) := by
  unfold expandLetStar
  split
  · split
    · exact kp_abort
    · split
      · exact kp_pure ⟨cl_lambda trivial hx.2, trivial⟩
      · exact kp_pure ⟨trivial, hx.1, hx.2⟩
      · refine kp_pure ?_
        simp only [Clean] at hx
        simp [listOf, Clean, hx]
      · exact kp_evalError
  · exact kp_abort

theorem clean_letrecParts {xs es : List V} (hx : CleanL pe xs) (he : CleanL pe es) :
    CleanL pe (letrecParts xs es).1 ∧ CleanL pe (letrecParts xs es).2 := by
  induction xs generalizing es with
  | nil => exact ⟨.nil, .nil⟩
  | cons x xs ih =>
    cases es with
    | nil => exact ⟨.nil, .nil⟩
    | cons e es =>
      obtain ⟨h1, h2⟩ := ih hx.tail he.tail
      exact ⟨.cons (by simp [listOf, Clean, hx.head]) h1, .cons (by simp [listOf, Clean, hx.head, he.head]) h2⟩

theorem expandLetrec_kp {x : V} (hx : Clean pe x) : KV Q pe (expandLetrec (σ := σ) x) := by
  unfold expandLetrec
  split
  · split
    · exact kp_abort
    · split
      · exact kp_pure ⟨cl_lambda trivial hx.2, trivial⟩
      · split
        · exact kp_abort
        · rename_i xs es hl
          obtain ⟨h1, h2⟩ := clean_letBindings (clean_nodes hx.1) hl
          obtain ⟨h3, h4⟩ := clean_letrecParts h1 h2
          exact kp_pure ⟨trivial, clean_listOf.2 h3, clean_listOf.2 (cleanL_append.2 ⟨h4, clean_nodes hx.2⟩)⟩
      · exact kp_abort
  · exact kp_abort

end
end Pscm.Ev
