import Verif.EvLim
/-!
# A generic preservation theorem

A `StRel` is a pair of relations between the state before and the state after (for computations that return, and for
computations that leave by an exception or a jump) that the elementary state changes of the evaluator respect.
`StRel.run_pres`: every evaluation respects it.
-/
namespace Pscm.Ev
variable {σ α β : Type}
open EM (stop getSt modSt)

/-- `x` relates the state it starts from to the state it ends in. -/
structure Pres (Rok : St σ → St σ → Prop) (Rst : St σ → Stop → St σ → Prop) (x : EM σ α) : Prop where
  ok : ∀ s a s', x s = some (.ok a, s') → Rok s s'
  st : ∀ s e s', x s = some (.stop e, s') → Rst s e s'

/-- A pair of relations respected by the elementary state changes. -/
structure StRel (σ : Type) where
  Rok : St σ → St σ → Prop
  Rst : St σ → Stop → St σ → Prop
  refl : ∀ s, Rok s s
  halt : ∀ s e, (e = .abort ∨ e = .ub ∨ e = .unmod) → Rst s e s
  thr : ∀ s k a, Rst s (throwStop s k a) s
  esc : ∀ s i v, i ∈ s.live → Rst s (.esc i v) s
  trans : ∀ a b c, Rok a b → Rok b c → Rok a c
  trans_st : ∀ a b e c, Rok a b → Rst b e c → Rst a e c
  push : ∀ s p f m, s.frames[p]? = some f → Rok s { s with frames := s.frames ++ [⟨[], some p, m⟩] }
  upd : ∀ s e g, (∀ es x, hasEntry x es = true → hasEntry x (g es) = true) → Rok s { s with frames := updFrame s.frames e g }
  modsAt : ∀ s m x v, Rok s { s with mods := obSet s.mods m x v }
  modsUse : ∀ s m u, Rok s { s with mods := useModule s.mods m u }
  modsExport : ∀ s r m x, Rok s { s with mods := exportSym s.mods r m x }
  modsNew : ∀ s nm, Rok s { s with mods := s.mods ++ [freshModule nm] }
  setCur : ∀ s m, Rok s { s with cur := m }
  delay : ∀ s e x, Rok s { s with proms := s.proms ++ [⟨e, x, Option.none⟩] }
  forced : ∀ s i p v, s.proms[i]? = some p → p.val = Option.none →
    Rok s { s with proms := s.proms.set i { p with val := some v } }
  setExt : ∀ s x, Rok s { s with ext := x }
  winds : ∀ s ws, Rok s { s with winds := ws }
  windPush : ∀ s ws, Rok s { s with next := s.next + 1, winds := ws }
  runCatch : ∀ (rec : Rec σ), (∀ t, Pres Rok Rst (rec t)) →
    (∀ e p b pe xs, Pres Rok Rst (applyProc rec e p b pe xs)) →
    (∀ p b pe xs, Pres Rok Rst (applyProcV rec p b pe xs)) →
    ∀ tag tp tb te hp hb he, Pres Rok Rst (Ev.runCatch rec tag tp tb te hp hb he)
  withCont : ∀ k : V → EM σ V, (∀ v, Pres Rok Rst (k v)) → Pres Rok Rst (Ev.withCont k)

/-- What it means for a computation to respect `I`. -/
abbrev StRel.Pr (I : StRel σ) (x : EM σ α) : Prop := Pres I.Rok I.Rst x

section leaves
variable (I : StRel σ)

theorem pr_pure (a : α) : I.Pr (pure a : EM σ α) :=
  ⟨by rintro s b s' ⟨⟩; exact I.refl _, by rintro s b s' ⟨⟩⟩

theorem pr_stop (e : Stop) (he : e = .abort ∨ e = .ub ∨ e = .unmod) : I.Pr (stop e : EM σ α) :=
  ⟨by rintro s b s' ⟨⟩, by rintro s b s' ⟨⟩; exact I.halt _ _ he⟩

theorem pr_getSt : I.Pr (getSt : EM σ (St σ)) :=
  ⟨by rintro s b s' ⟨⟩; exact I.refl _, by rintro s b s' ⟨⟩⟩

theorem pr_modSt (f : St σ → St σ) (h : ∀ s, I.Rok s (f s)) : I.Pr (modSt f) :=
  ⟨by rintro s b s' ⟨⟩; exact h _, by rintro s b s' ⟨⟩⟩

theorem pr_diverge : I.Pr (EM.diverge : EM σ α) := ⟨by rintro s b s' ⟨⟩, by rintro s b s' ⟨⟩⟩

theorem pr_throwKey (k : Name) (a : V) : I.Pr (throwKey k a : EM σ α) :=
  ⟨by rintro s b s' ⟨⟩, by rintro s b s' ⟨⟩; exact I.thr _ _ _⟩

theorem pr_evalError (m : String) : I.Pr (evalError m : EM σ α) := pr_throwKey I _ _
theorem pr_typeError : I.Pr (typeError : EM σ α) := pr_throwKey I _ _
theorem pr_wrongArgs (f : V) : I.Pr (wrongArgs f : EM σ α) := pr_throwKey I _ _

theorem pr_bind {x : EM σ α} {f : α → EM σ β} (hx : I.Pr x) (hf : ∀ a, I.Pr (f a)) : I.Pr (x >>= f) := by
  constructor
  · intro s b s' h
    simp only [Bind.bind, EM.bind] at h
    cases hxs : x s with
    | none => simp [hxs] at h
    | some q =>
      obtain ⟨o, s1⟩ := q
      rw [hxs] at h
      cases o with
      | ok a => exact I.trans _ _ _ (hx.ok _ _ _ hxs) ((hf a).ok _ _ _ h)
      | stop e => simp at h
  · intro s b s' h
    simp only [Bind.bind, EM.bind] at h
    cases hxs : x s with
    | none => simp [hxs] at h
    | some q =>
      obtain ⟨o, s1⟩ := q
      rw [hxs] at h
      cases o with
      | ok a => exact I.trans_st _ _ _ _ (hx.ok _ _ _ hxs) ((hf a).st _ _ _ h)
      | stop e =>
        simp only [Option.some.injEq, Prod.mk.injEq] at h
        obtain ⟨he, rfl⟩ := h
        cases he
        exact hx.st _ _ _ hxs

theorem hasEntry_setEntry {es : List (Name × V)} {x y : Name} {v : V} (h : hasEntry x es = true) :
    hasEntry x (setEntry y v es) = true := by
  unfold hasEntry at *
  induction es with
  | nil => simp [findEntry] at h
  | cons p es ih =>
    obtain ⟨k, w⟩ := p
    unfold findEntry at h
    unfold setEntry
    split at h
    · rename_i hk; split <;> simp [findEntry, hk]
    · rename_i hk
      split <;> simp only [findEntry, hk, if_false]
      · exact h
      · exact ih h

theorem hasEntry_cons {es : List (Name × V)} {x y : Name} {v : V} (h : hasEntry x es = true) :
    hasEntry x ((y, v) :: es) = true := by
  unfold hasEntry at *
  simp only [findEntry]
  split
  · rfl
  · exact h

theorem hasEntry_upsert {es : List (Name × V)} {x y : Name} {v : V} (h : hasEntry x es = true) :
    hasEntry x (upsert y v es) = true := by
  unfold upsert
  split
  · exact hasEntry_setEntry h
  · exact hasEntry_cons h

theorem rel_insertOwn (s : St σ) (e x v) : I.Rok s { s with frames := insertOwn s.frames e x v } :=
  I.upd s e _ fun _ _ h => hasEntry_upsert h

theorem rel_setEntry (s : St σ) (e x v) : I.Rok s { s with frames := updFrame s.frames e (setEntry x v) } :=
  I.upd s e _ fun _ _ h => hasEntry_setEntry h

theorem rel_insertDeep (s : St σ) (e x v) : I.Rok s { s with frames := insertDeep s.frames e x v } := by
  unfold insertDeep
  split
  · exact I.upd s _ _ fun _ _ h => hasEntry_setEntry h
  · exact I.upd s _ _ fun _ _ h => hasEntry_cons h

theorem rel_assign (s : St σ) (e x v) : I.Rok s (assignSt s e x v) := by
  unfold assignSt
  split
  · exact rel_setEntry I ..
  · split
    · exact I.modsAt ..
    · exact rel_insertOwn I ..

theorem rel_define (s : St σ) (e x v) : I.Rok s (defineSt s e x v) := by
  unfold defineSt
  split
  · exact I.refl _
  · split
    · split
      · exact I.modsAt ..
      · exact rel_insertOwn I ..
    · split
      · exact rel_setEntry I ..
      · exact I.modsAt ..

theorem rel_defineProc (s : St σ) (x v) : I.Rok s (defineProcSt s x v) := I.modsAt ..

theorem rel_defineMacro (s : St σ) (e x v) : I.Rok s (defineMacroSt s e x v) := by
  unfold defineMacroSt
  split
  · exact I.modsAt ..
  · split
    · exact I.refl _
    · split
      · exact rel_insertDeep I ..
      · split
        · exact rel_setEntry I ..
        · exact rel_insertDeep I ..

theorem rel_export (s : St σ) (r m xs) : I.Rok s { s with mods := exportAll s.mods r m xs } := by
  suffices h : ∀ ms, I.Rok s { s with mods := ms } → I.Rok s { s with mods := exportAll ms r m xs } from h _ (I.refl s)
  intro ms h
  fun_induction exportAll ms r m xs with
  | case1 => exact h
  | case2 ms x xs ih => exact ih (I.trans _ _ _ h (I.modsExport { s with mods := ms } ..))
  | case3 ms x xs _ ih => exact ih h

theorem pr_newEnv (p : EnvId) : I.Pr (newEnv p) := by
  constructor <;> intro s a s' h <;> unfold newEnv at h <;> split at h
  · rename_i f hf; cases h; exact I.push _ _ _ _ hf
  · cases h
  · cases h
  · cases h; exact I.halt _ _ (by simp)

theorem pr_newModEnv (m : Nat) : I.Pr (newModEnv (σ := σ) m) := by
  constructor <;> intro s a s' h <;> unfold newModEnv at h <;> split at h
  · rename_i f hf; cases h; exact I.push _ _ _ _ hf
  · cases h
  · cases h
  · cases h; exact I.halt _ _ (by simp)

theorem pr_registerModule (n : V) : I.Pr (registerModule (σ := σ) n) := by
  constructor <;> intro s a s' h <;> unfold registerModule at h <;> split at h <;> cases h
  · exact I.refl _
  · exact I.modsNew ..

theorem pr_bindOwn (e x v) : I.Pr (bindOwn e x v) := pr_modSt I _ fun s => rel_insertOwn I ..
theorem pr_bindDeep (e x v) : I.Pr (bindDeep e x v) := pr_modSt I _ fun s => rel_insertDeep I ..
theorem pr_lookup (e x) : I.Pr (lookupSymbol e x) := by
  unfold lookupSymbol
  refine pr_bind I (pr_getSt I) fun s => ?_
  split
  · exact pr_pure I _
  · exact pr_evalError I _

theorem pr_delay (e x) : I.Pr (evalDelay e x) := by
  unfold evalDelay
  split
  · exact pr_evalError I _
  · refine ⟨?_, ?_⟩ <;> intro s a s' h
    · cases h; exact I.delay ..
    · cases h
end leaves

/-- Reading the state and continuing. -/
theorem pr_getSt_bind (I : StRel σ) {f : St σ → EM σ β}
    (hok : ∀ s a s', f s s = some (.ok a, s') → I.Rok s s')
    (hst : ∀ s e s', f s s = some (.stop e, s') → I.Rst s e s') : I.Pr (getSt >>= f) := ⟨hok, hst⟩

syntax "pres1 " term:max ("[" term,* "]")? : tactic
macro_rules
  | `(tactic| pres1 $I [$ts,*]) =>
    `(tactic| repeat' (first
        | exact pr_pure $I _
        | exact pr_stop $I _ (by simp)
        | exact pr_getSt $I
        | exact pr_evalError $I _
        | exact pr_typeError $I
        | exact pr_wrongArgs $I _
        | exact pr_throwKey $I _ _
        | exact pr_newEnv $I _
        | exact pr_newModEnv $I _
        | exact pr_registerModule $I _
        | exact pr_bindOwn $I _ _ _
        | exact pr_bindDeep $I _ _ _
        | exact pr_lookup $I _ _
        | exact pr_delay $I _ _
        | exact pr_modSt $I _ fun _ => rel_assign $I ..
        | exact pr_modSt $I _ fun _ => rel_define $I ..
        | exact pr_modSt $I _ fun _ => rel_defineProc $I ..
        | exact pr_modSt $I _ fun _ => rel_defineMacro $I ..
        | exact pr_modSt $I _ fun _ => rel_export $I ..
        | exact pr_modSt $I _ fun _ => StRel.winds $I ..
        | exact pr_modSt $I _ fun _ => StRel.windPush $I ..
        | exact pr_modSt $I _ fun _ => StRel.setCur $I ..
        | exact pr_modSt $I _ fun _ => StRel.modsUse $I ..
        | exact pr_modSt $I _ fun _ => StRel.modsExport $I ..
        | assumption
        $[| apply $ts]*
        | refine pr_bind $I ?_ ?_
        | intro _
        | split))

section
variable {I : StRel σ} {r : Rec σ} (h : ∀ t, I.Pr (r t))
include h

theorem evalArgs_pr (e : EnvId) (xs : List V) : I.Pr (evalArgs r e xs) := by
  induction xs with
  | nil => exact pr_pure I _
  | cons x xs ih => unfold evalArgs; pres1 I [h, ih]

theorem evalSeq_pr (e : EnvId) (xs : List V) : I.Pr (evalSeq r e xs) := by
  induction xs with
  | nil => exact pr_stop I _ (by simp)
  | cons x xs ih => cases xs <;> unfold evalSeq <;> pres1 I [h, ih]

theorem bindParams_pr (env pe : EnvId) (ps : List V) (q : Option Name) (xs : List V) :
    I.Pr (bindParams r env pe ps q xs) := by
  fun_induction bindParams r env pe ps q xs <;> pres1 I [h, evalArgs_pr h]

theorem applyProc_pr (env : EnvId) (p b : V) (pe : EnvId) (xs : List V) : I.Pr (applyProc r env p b pe xs) := by
  unfold applyProc; pres1 I [bindParams_pr h, evalSeq_pr h]

omit h in
theorem bindValues_pr (pe : EnvId) (ps : List V) (q : Option Name) (xs : List V) : I.Pr (bindValues (σ := σ) pe ps q xs) := by
  fun_induction bindValues (σ := σ) pe ps q xs <;> pres1 I [pr_pure I]

theorem applyProcV_pr (p b : V) (pe : EnvId) (xs : List V) : I.Pr (applyProcV r p b pe xs) := by
  unfold applyProcV; pres1 I [bindValues_pr, evalSeq_pr h]

theorem force_pr (id : Nat) : I.Pr (force r id) := by
  unfold force
  refine pr_bind I (pr_getSt I) fun s => ?_
  split
  · exact pr_stop I _ (by simp)
  · split
    · exact pr_pure I _
    · refine pr_bind I (applyProc_pr h ..) fun v => ?_
      refine pr_getSt_bind I ?_ ?_
      · intro s' a s'' hh
        cases hp : promVal s' id with
        | some v' => rw [hp] at hh; cases hh; exact I.refl _
        | none =>
          rw [hp] at hh
          unfold promVal at hp
          simp only [Bind.bind, EM.bind, setProm, modSt] at hh
          split at hp
          · rename_i p' hp'
            rw [hp'] at hh
            cases hh
            exact I.forced _ _ _ _ hp' hp
          · rename_i hp'
            rw [hp'] at hh
            cases hh
            exact I.refl _
      · intro s' a s'' hh
        cases hp : promVal s' id <;> rw [hp] at hh <;> cases hh

theorem catchPrim_pr (xs : List V) : I.Pr (catchPrim r xs) := by
  unfold catchPrim; pres1 I [I.runCatch r h (applyProc_pr h) (applyProcV_pr h)]

theorem callGuard_pr (g : V) : I.Pr (callGuard r g) := by
  unfold callGuard; pres1 I [applyProc_pr h]

theorem callOuts_pr (ws : List Wind) : I.Pr (callOuts r ws) := by
  induction ws with
  | nil => exact pr_pure I _
  | cons w ws ih => unfold callOuts; pres1 I [callGuard_pr h, ih]

theorem callIns_pr (ws : List Wind) : I.Pr (callIns r ws) := by
  induction ws with
  | nil => exact pr_pure I _
  | cons w ws ih => unfold callIns; pres1 I [callGuard_pr h, ih]

theorem switchWinds_pr (ws : List Wind) : I.Pr (switchWinds r ws) := by
  unfold switchWinds; pres1 I [callOuts_pr h, callIns_pr h]

theorem dynthrow_pr (id : Nat) (v : V) : I.Pr (dynthrow r id v) := by
  unfold dynthrow
  refine pr_bind I (pr_getSt I) fun s => ?_
  split
  · exact pr_stop I _ (by simp)
  · refine pr_bind I (switchWinds_pr h _) fun _ => pr_getSt_bind I ?_ ?_
    · intro s a s' hh
      split at hh <;> cases hh
    · intro s a s' hh
      split at hh <;> cases hh
      · rename_i hl; exact I.esc _ _ _ hl
      · exact I.halt _ _ (by simp)

omit h in
theorem throwPrim_pr (xs : List V) : I.Pr (throwPrim (σ := σ) xs) := by
  unfold throwPrim; pres1 I [pr_pure I]

omit h in
theorem bindForms_pr (pe : EnvId) (ps : List V) (q : Option Name) (xs : List V) : I.Pr (bindForms (σ := σ) pe ps q xs) := by
  fun_induction bindForms (σ := σ) pe ps q xs <;> pres1 I [pr_pure I]

theorem expandCall_pr (p b : V) (me : EnvId) (xs : List V) : I.Pr (expandCall r p b me xs) := by
  unfold expandCall; pres1 I [bindForms_pr, evalSeq_pr h]

theorem macroexpand1_pr (x : V) : I.Pr (macroexpand1 r x) := by
  unfold macroexpand1; pres1 I [expandCall_pr h]

theorem macroexpandLoop_pr (x : V) : I.Pr (macroexpandLoop r x) := by
  unfold macroexpandLoop; pres1 I [h, macroexpand1_pr h]

theorem loadFile_pr (P : Prims σ) (e : EnvId) (f : String) : I.Pr (loadFile P r e f) := by
  unfold loadFile; pres1 I [evalSeq_pr h]

theorem resolveModule_pr (P : Prims σ) (n : V) : I.Pr (resolveModule P r n) := by
  unfold resolveModule; pres1 I [loadFile_pr h]

theorem useModules_pr (P : Prims σ) (m : Nat) (xs : List V) : I.Pr (useModules P r m xs) := by
  induction xs with
  | nil => exact pr_pure I _
  | cons x xs ih => cases x <;> unfold useModules <;> pres1 I [resolveModule_pr h, ih]

theorem runOpts_pr (P : Prims σ) (m : Nat) (os : List ModOpt) : I.Pr (runOpts P r m os) := by
  induction os with
  | nil => exact pr_pure I _
  | cons o os ih => cases o <;> unfold runOpts <;> pres1 I [resolveModule_pr h, ih]

theorem evalDefineModule_pr (P : Prims σ) (x : V) : I.Pr (evalDefineModule P r x) := by
  unfold evalDefineModule; pres1 I [runOpts_pr h]

theorem modPrim_pr (P : Prims σ) (n : Name) (xs : List V) : I.Pr (modPrim P r n xs) := by
  unfold modPrim; pres1 I [resolveModule_pr h]

theorem runPrim_pr (t : PrimRes σ) : I.Pr (runPrim r t) := by
  induction t with
  | done o x =>
    cases o with
    | ok v => exact ⟨by rintro s b s' ⟨⟩; exact I.setExt .., by rintro s b s' ⟨⟩⟩
    | raise k d =>
      refine ⟨?_, ?_⟩
      · rintro s b s' ⟨⟩
      · rintro s b s' ⟨⟩
        exact I.trans_st _ _ _ _ (I.setExt s x) (I.thr { s with ext := x } k d)
    | abort =>
      refine ⟨?_, ?_⟩
      · rintro s b s' ⟨⟩
      · rintro s b s' ⟨⟩
        exact I.trans_st _ _ _ _ (I.setExt ..) (I.halt _ _ (by simp))
    | ub =>
      refine ⟨?_, ?_⟩
      · rintro s b s' ⟨⟩
      · rintro s b s' ⟨⟩
        exact I.trans_st _ _ _ _ (I.setExt ..) (I.halt _ _ (by simp))
  | eval e x k ih =>
    unfold runPrim
    refine pr_bind I (pr_modSt I _ fun s => I.setExt s x) fun _ => ?_
    pres1 I [h, ih]

theorem ext_pr (P : Prims σ) (n : Name) (xs : List V) : I.Pr (extPrim P r n xs) := by
  unfold extPrim; pres1 I [runPrim_pr h]

theorem callPrim_pr (P : Prims σ) (n : Name) (xs : List V) : I.Pr (callPrim P r n xs) := by
  unfold callPrim
  split
  · exact pr_pure I _
  split
  · pres1 I [force_pr h]
  split
  · exact catchPrim_pr h _
  split
  · exact throwPrim_pr _
  split
  · pres1 I [h]
  split
  · pres1 I [loadFile_pr h]
  split
  · pres1 I [macroexpand1_pr h]
  split
  · pres1 I [h]
  split
  · exact modPrim_pr h ..
  split
  · exact pr_stop I _ (by simp)
  exact ext_pr h ..

attribute [local irreducible] callPrim

theorem reducePrim_pr (P : Prims σ) (n : Name) (a : V) (xs : List V) : I.Pr (reducePrim P r n a xs) := by
  induction xs generalizing a with
  | nil => exact pr_pure I _
  | cons x xs ih => unfold reducePrim; pres1 I [callPrim_pr h, ih]

theorem callFunc_pr (P : Prims σ) (n : Name) (a : Int) (xs : List V) : I.Pr (callFunc P r n a xs) := by
  unfold callFunc; pres1 I [callPrim_pr h, reducePrim_pr h]

omit h in
theorem evalLambda_pr (env : EnvId) (x : V) : I.Pr (evalLambda (σ := σ) env x) := by
  unfold evalLambda; pres1 I [pr_pure I]

theorem evalDefine_pr (env : EnvId) (x : V) : I.Pr (evalDefine r env x) := by
  unfold evalDefine; pres1 I [h, evalLambda_pr]

theorem evalSet_pr (env : EnvId) (x : V) : I.Pr (evalSet r env x) := by
  unfold evalSet; pres1 I [h]

theorem evalDefineMacro_pr (env : EnvId) (x : V) : I.Pr (evalDefineMacro r env x) := by
  unfold evalDefineMacro; pres1 I [h]

theorem expandElems_pr (env : EnvId) (x : V) : I.Pr (expandElems r env x) := by
  induction x <;> unfold expandElems <;> pres1 I [h]

theorem expandMacros_pr (env : EnvId) (x : V) : I.Pr (expandMacros r env x) := by
  unfold expandMacros; pres1 I [h, expandCall_pr h, expandElems_pr h]

theorem macroCall_pr (env : EnvId) (p b : V) (me : EnvId) (x : V) : I.Pr (macroCall r env p b me x) := by
  unfold macroCall; pres1 I [h, expandCall_pr h]

omit h in
theorem expandLet_pr (x : V) : I.Pr (expandLet (σ := σ) x) := by unfold expandLet; pres1 I [pr_pure I]
omit h in
theorem expandLetStar_pr (x : V) : I.Pr (expandLetStar (σ := σ) x) := by unfold expandLetStar; pres1 I [pr_pure I]
omit h in
theorem expandLetrec_pr (x : V) : I.Pr (expandLetrec (σ := σ) x) := by unfold expandLetrec; pres1 I [pr_pure I]

theorem evalIf_pr (env : EnvId) (xs : List V) : I.Pr (evalIf r env xs) := by
  unfold evalIf; pres1 I [h]

theorem evalAnd_pr (env : EnvId) (xs : List V) : I.Pr (evalAnd r env xs) := by
  induction xs with
  | nil => exact pr_pure I _
  | cons x xs ih => cases xs <;> unfold evalAnd <;> pres1 I [h, ih]

theorem evalOr_pr (env : EnvId) (xs : List V) : I.Pr (evalOr r env xs) := by
  induction xs with
  | nil => exact pr_pure I _
  | cons x xs ih => cases xs <;> unfold evalOr <;> pres1 I [h, ih]

theorem condArrow_pr (env : EnvId) (p m : V) : I.Pr (condArrow r env p m) := by
  unfold condArrow; pres1 I [h]

theorem evalCond_pr (env : EnvId) (xs : List V) : I.Pr (evalCond r env xs) := by
  induction xs with
  | nil => exact pr_pure I _
  | cons x xs ih => cases x <;> unfold evalCond <;> pres1 I [h, evalSeq_pr h, condArrow_pr h, ih]

theorem caseClauses_pr (env : EnvId) (k : V) (xs : List V) : I.Pr (caseClauses r env k xs) := by
  induction xs with
  | nil => exact pr_pure I _
  | cons x xs ih => cases x <;> unfold caseClauses <;> pres1 I [h, evalSeq_pr h, ih]

theorem evalCase_pr (env : EnvId) (xs : List V) : I.Pr (evalCase r env xs) := by
  unfold evalCase; pres1 I [h, caseClauses_pr h]

theorem doInit_pr (env de : EnvId) (xs : List V) : I.Pr (doInit r env de xs) := by
  induction xs with
  | nil => exact pr_pure I _
  | cons x xs ih =>
    cases x with
    | pair a d => cases a <;> unfold doInit <;> pres1 I [h, ih]
    | _ => exact pr_evalError I _

theorem doSteps_pr (de : EnvId) (xs : List (Name × V)) : I.Pr (doSteps r de xs) := by
  induction xs with
  | nil => exact pr_pure I _
  | cons x xs ih => unfold doSteps; pres1 I [h, ih]

omit h in
theorem doUpdate_pr (de : EnvId) (xs : List (Name × V)) : I.Pr (doUpdate (σ := σ) de xs) := by
  induction xs with
  | nil => exact pr_pure I _
  | cons x xs ih => unfold doUpdate; pres1 I [ih]

theorem doLoop_pr (de : EnvId) (t res b : V) (st : List (Name × V)) : I.Pr (doLoop r de t res b st) := by
  unfold doLoop; pres1 I [h, doSteps_pr h, doUpdate_pr, evalArgs_pr h, evalSeq_pr h]

theorem evalDo_pr (env : EnvId) (x : V) : I.Pr (evalDo r env x) := by
  unfold evalDo; pres1 I [h, doInit_pr h]

theorem applyQuoted_pr (P : Prims σ) (env : EnvId) (f : V) (row : List V) : I.Pr (applyQuoted P r env f row) := by
  unfold applyQuoted; pres1 I [applyProc_pr h, evalArgs_pr h, callFunc_pr h]

theorem mapRows_pr (P : Prims σ) (env : EnvId) (f : V) (rs : List (List V)) : I.Pr (mapRows P r env f rs) := by
  induction rs with
  | nil => exact pr_pure I _
  | cons x xs ih => unfold mapRows; pres1 I [applyQuoted_pr h, ih]

theorem evalLists_pr (env : EnvId) (xs : List V) : I.Pr (evalLists r env xs) := by
  induction xs with
  | nil => exact pr_pure I _
  | cons x xs ih => unfold evalLists; pres1 I [h, ih]

theorem evalMap_pr (P : Prims σ) (env : EnvId) (xs : List V) : I.Pr (evalMap P r env xs) := by
  unfold evalMap; pres1 I [h, evalLists_pr h, mapRows_pr h]

theorem forEachLoop_pr (env : EnvId) (f : V) (n : Nat) (cols : List (List V)) : I.Pr (forEachLoop r env f n cols) := by
  induction n generalizing cols with
  | zero => exact pr_stop I _ (by simp)
  | succ n ih => unfold forEachLoop; pres1 I [h, ih]

theorem forEachArgs_pr (env : EnvId) (k : Nat) (xs : List V) : I.Pr (forEachArgs r env k xs) := by
  induction k generalizing xs with
  | zero => exact pr_pure I _
  | succ n ih => cases xs <;> unfold forEachArgs <;> pres1 I [h, ih]

theorem evalForEach_pr (env : EnvId) (xs : List V) : I.Pr (evalForEach r env xs) := by
  unfold evalForEach; pres1 I [h, forEachArgs_pr h, forEachLoop_pr h]

theorem callCC_pr (P : Prims σ) (env : EnvId) (f : V) : I.Pr (callCC P r env f) := by
  unfold callCC; pres1 I [I.withCont, applyProc_pr h, evalArgs_pr h, callFunc_pr h]

theorem applyTo_pr (P : Prims σ) (env : EnvId) (f : V) (xs : List V) : I.Pr (applyTo P r env f xs) := by
  unfold applyTo; pres1 I [h, applyProc_pr h, evalArgs_pr h, callFunc_pr h, callCC_pr h]

theorem evalApply_pr (P : Prims σ) (env : EnvId) (xs : List V) : I.Pr (evalApply P r env xs) := by
  unfold evalApply; pres1 I [h, dynthrow_pr h, evalArgs_pr h, applyTo_pr h]

theorem evalCallWithValues_pr (P : Prims σ) (env : EnvId) (xs : List V) : I.Pr (evalCallWithValues P r env xs) := by
  unfold evalCallWithValues; pres1 I [h, applyProc_pr h, applyProcV_pr h, callFunc_pr h]

theorem evalDynamicWind_pr (env : EnvId) (xs : List V) : I.Pr (evalDynamicWind r env xs) := by
  unfold evalDynamicWind; pres1 I [h, applyProc_pr h]

omit h in
theorem listToVec_pr (x : V) : I.Pr (listToVec (σ := σ) x) := by unfold listToVec; pres1 I [pr_pure I]

theorem quasi_pr (env : EnvId) (x : V) (d : Nat) : I.Pr (quasi r env x d) := by
  fun_induction quasi r env x d <;> pres1 I [h, listToVec_pr]

theorem evalBegin_pr (env : EnvId) (xs : List V) : I.Pr (evalBegin r env xs) := by
  unfold evalBegin; pres1 I [evalSeq_pr h]

theorem evalCallCC_pr (env : EnvId) (xs : List V) : I.Pr (evalCallCC r env xs) := by
  unfold evalCallCC; pres1 I [h, I.withCont]

theorem evalForm_pr (P : Prims σ) (f : Form) (env : EnvId) (x : V) : I.Pr (evalForm P r f env x) := by
  unfold evalForm
  pres1 I [h, evalDefine_pr h, evalDefineMacro_pr h, evalCallCC_pr h, evalSet_pr h, quasi_pr h, evalIf_pr h, evalAnd_pr h,
    evalOr_pr h, evalCond_pr h, evalCase_pr h, evalBegin_pr h, evalForEach_pr h, evalDo_pr h, evalMap_pr h, evalApply_pr h,
    evalCallWithValues_pr h, evalDynamicWind_pr h, expandLet_pr, expandLetStar_pr, expandLetrec_pr, evalLambda_pr,
    evalDefineModule_pr h, useModules_pr h]

theorem evalFuncCall_pr (P : Prims σ) (env : EnvId) (n : Name) (a : Int) (x : V) : I.Pr (evalFuncCall P r env n a x) := by
  unfold evalFuncCall; pres1 I [evalApply_pr h, evalMap_pr h, callCC_pr h, evalArgs_pr h, callFunc_pr h]

theorem evalPair_pr (P : Prims σ) (env : EnvId) (x d : V) : I.Pr (evalPair P r env x d) := by
  unfold evalPair
  pres1 I [h, macroCall_pr h, evalForm_pr h, dynthrow_pr h, applyProc_pr h, evalFuncCall_pr h]

theorem step_pr (P : Prims σ) (t : Task) : I.Pr (step P r t) := by
  unfold step; pres1 I [evalPair_pr h, expandMacros_pr h, doLoop_pr h, macroexpandLoop_pr h]
end

theorem StRel.ev_pres (I : StRel σ) (P : Prims σ) (n : Nat) (t : Task) : I.Pr (ev P n t) := by
  induction n generalizing t with
  | zero => exact pr_diverge I
  | succ n ih => exact step_pr ih P t

theorem StRel.run_pres (I : StRel σ) (P : Prims σ) (t : Task) : I.Pr (run P t) := by
  constructor
  · intro s a s' h
    obtain ⟨n, hn⟩ := run_eq_some.1 h
    exact (I.ev_pres P n t).ok _ _ _ hn
  · intro s a s' h
    obtain ⟨n, hn⟩ := run_eq_some.1 h
    exact (I.ev_pres P n t).st _ _ _ hn

end Pscm.Ev
