import Verif.EvHide2
/-! # Hidden frames: the remaining functions, and the main theorem -/
namespace Pscm.Ev
variable {σ α β : Type}
open EM (stop getSt modSt)

section
variable {Q : σ → Prop} {pe : Dom} {r : Rec σ} (h : RecOK Q pe r)
include h

theorem evalIf_kp {env : EnvId} {xs : List V} (he : pe.D env) (hx : CleanL pe xs) : KV Q pe (evalIf r env xs) := by
  unfold evalIf
  split
  · exact kp_abort
  · refine kp_bind (h (.eval env _) ⟨he, hx.head⟩) fun v hv => ?_
    have ht := hx.tail
    split
    · split
      · exact h (.eval env _) ⟨he, ht.head⟩
      · exact kp_ub
    · split
      · exact h (.eval env _) ⟨he, ht.tail.head⟩
      · exact kp_pure trivial
      · exact kp_ub

theorem evalAnd_kp {env : EnvId} {xs : List V} (he : pe.D env) (hx : CleanL pe xs) : KV Q pe (evalAnd r env xs) := by
  induction xs with
  | nil => exact kp_pure trivial
  | cons x xs ih =>
    cases xs with
    | nil => exact h (.eval env _) ⟨he, hx.head⟩
    | cons y ys =>
      refine kp_bind (h (.eval env _) ⟨he, hx.head⟩) fun v hv => ?_
      split
      · exact ih hx.tail
      · exact kp_pure trivial

theorem evalOr_kp {env : EnvId} {xs : List V} (he : pe.D env) (hx : CleanL pe xs) : KV Q pe (evalOr r env xs) := by
  induction xs with
  | nil => exact kp_pure trivial
  | cons x xs ih =>
    cases xs with
    | nil => exact h (.eval env _) ⟨he, hx.head⟩
    | cons y ys =>
      refine kp_bind (h (.eval env _) ⟨he, hx.head⟩) fun v hv => ?_
      split
      · exact kp_pure hv
      · exact ih hx.tail

theorem condArrow_kp {env : EnvId} {p m : V} (he : pe.D env) (hp : Clean pe p) (hm : Clean pe m) :
    KV Q pe (condArrow r env p m) := by
  unfold condArrow
  split
  · exact kp_abort
  · rename_i fe _ hu
    refine kp_bind (h (.eval env _) ⟨he, (clean_uncons hm hu).1⟩) fun v hv => ?_
    split
    · refine kp_getSt ?_ ?_
      · intro i s es hk c; simp only [repl_own (hk.ne he)]
      · intro s c
        split
        · rename_i w hw
          exact h (.eval env _) ⟨he, by simp [listOf, Clean, clean_own c he hw, clean_quoted, hp]⟩
        · exact kp_pure hv
    · exact h (.eval env _) ⟨he, by simp [listOf, Clean, clean_quoted, hp, hv]⟩

theorem evalCond_kp {env : EnvId} {xs : List V} (he : pe.D env) (hx : CleanL pe xs) : KV Q pe (evalCond r env xs) := by
  induction xs with
  | nil => exact kp_pure trivial
  | cons x xs ih =>
    cases x with
    | pair test body =>
      have hc := hx.head
      unfold evalCond
      split
      · exact evalSeq_kp h he (clean_nodes hc.2)
      · refine kp_bind (h (.eval env _) ⟨he, hc.1⟩) fun v hv => ?_
        split
        · split
          · exact kp_pure trivial
          · rename_i hd more hu
            split
            · refine kp_getSt ?_ ?_
              · intro i s es hk c; simp only [repl_own (hk.ne he)]
              · intro s c
                split
                · exact condArrow_kp h he hv (clean_uncons hc.2 hu).2
                · exact evalSeq_kp h he (clean_nodes hc.2)
            · exact evalSeq_kp h he (clean_nodes hc.2)
        · exact ih hx.tail
    | nil => exact kp_ub
    | _ => exact kp_typeError

theorem caseClauses_kp {env : EnvId} {k : V} {xs : List V} (he : pe.D env) (hx : CleanL pe xs) :
    KV Q pe (caseClauses r env k xs) := by
  induction xs with
  | nil => exact kp_pure trivial
  | cons x xs ih =>
    cases x with
    | pair ds body =>
      have hc := hx.head
      unfold caseClauses
      split
      · exact evalSeq_kp h he (clean_nodes hc.2)
      · split
        · split
          · exact evalSeq_kp h he (clean_nodes hc.2)
          · exact ih hx.tail
          · exact kp_evalError
          · exact kp_unmod
        · exact kp_typeError
    | nil => exact kp_ub
    | _ => exact kp_typeError

theorem evalCase_kp {env : EnvId} {xs : List V} (he : pe.D env) (hx : CleanL pe xs) : KV Q pe (evalCase r env xs) := by
  unfold evalCase
  split
  · exact kp_abort
  · exact kp_bind (h (.eval env _) ⟨he, hx.head⟩) fun v hv => caseClauses_kp h he hx.tail

theorem doInit_kp {env de : EnvId} {xs : List V} (he : pe.D env) (hd : pe.D de) (hx : CleanL pe xs) :
    Keeps Q pe (CleanEs pe) (doInit r env de xs) := by
  induction xs with
  | nil => exact kp_pure fun p hp => by cases hp
  | cons x xs ih =>
    cases x with
    | pair a d =>
      have hc := hx.head
      cases a with
      | sym y =>
        unfold doInit
        split
        · exact kp_evalError
        · rename_i e more hu
          obtain ⟨h1, h2⟩ := clean_uncons hc.2 hu
          refine kp_bind (h (.eval env _) ⟨he, h1⟩) fun v hv => kp_bind (kp_bindDeep hd hv) fun _ _ =>
            kp_bind (ih hx.tail) fun rest hr => ?_
          split
          · rename_i st _ hu2
            exact kp_pure (cleanEs_cons hr (clean_uncons h2 hu2).1)
          · exact kp_pure hr
      | _ => exact kp_evalError
    | _ => exact kp_evalError

theorem doSteps_kp {de : EnvId} {xs : List (Name × V)} (hd : pe.D de) (hx : CleanEs pe xs) :
    Keeps Q pe (CleanEs pe) (doSteps r de xs) := by
  induction xs with
  | nil => exact kp_pure fun p hp => by cases hp
  | cons x xs ih =>
    exact kp_bind (h (.eval de _) ⟨hd, hx _ List.mem_cons_self⟩) fun v hv =>
      kp_bind (ih fun p hp => hx p (List.mem_cons_of_mem _ hp)) fun vs hvs => kp_pure (cleanEs_cons hvs hv)

omit h in
theorem doUpdate_kp {de : EnvId} {xs : List (Name × V)} (hd : pe.D de) (hx : CleanEs pe xs) : KU Q pe (doUpdate (σ := σ) de xs) := by
  induction xs with
  | nil => exact kp_pure trivial
  | cons x xs ih =>
    exact kp_bind (kp_bindDeep hd (hx _ List.mem_cons_self)) fun _ _ => ih fun p hp => hx p (List.mem_cons_of_mem _ hp)

theorem doLoop_kp {de : EnvId} {t res b : V} {st : List (Name × V)} (hd : pe.D de) (ht : Clean pe t) (hr : Clean pe res)
    (hb : Clean pe b) (hs : CleanEs pe st) : KV Q pe (doLoop r de t res b st) := by
  unfold doLoop
  refine kp_bind (h (.eval de _) ⟨hd, ht⟩) fun v hv => ?_
  split
  · exact kp_bind (evalArgs_kp h hd (clean_nodes hb)) fun _ _ => kp_bind (doSteps_kp h hd hs) fun vs hvs =>
      kp_bind (doUpdate_kp hd hvs) fun _ _ => h (.doLoop de t res b st) ⟨hd, ht, hr, hb, hs⟩
  · split
    · exact kp_pure trivial
    · split
      · exact evalSeq_kp h hd (clean_nodes hr)
      · exact kp_typeError
  · exact kp_typeError

theorem evalDo_kp {env : EnvId} {x : V} (he : pe.D env) (hx : Clean pe x) : KV Q pe (evalDo r env x) := by
  unfold evalDo
  split
  · rename_i vars tc body
    obtain ⟨h1, h2, h3⟩ := hx
    split
    · refine kp_bind (kp_newEnv he) fun de hd => kp_bind (doInit_kp h he hd (clean_nodes h1)) fun st hst => ?_
      split
      · exact h (.doLoop de _ _ _ _) ⟨hd, h2.1, h2.2, h3, hst⟩
      · exact kp_evalError
      · exact kp_typeError
    · exact kp_typeError
  · exact kp_abort

theorem evalLists_kp {env : EnvId} {xs : List V} (he : pe.D env) (hx : CleanL pe xs) :
    Keeps Q pe (fun cs => ∀ c ∈ cs, CleanL pe c) (evalLists r env xs) := by
  induction xs with
  | nil => exact kp_pure fun c hc => by cases hc
  | cons x xs ih =>
    refine kp_bind (h (.eval env _) ⟨he, hx.head⟩) fun v hv => ?_
    split
    · refine kp_bind (ih hx.tail) fun vs hvs => kp_pure ?_
      intro c hc
      rcases List.mem_cons.1 hc with rfl | hc
      · exact clean_nodes hv
      · exact hvs c hc
    · exact kp_evalError

omit h in
theorem clean_rows {cs : List (List V)} (hc : ∀ c ∈ cs, CleanL pe c) : ∀ row ∈ rows cs, CleanL pe row := by
  induction cs with
  | nil => intro row hr; cases hr
  | cons l ls ih =>
    have hl := hc l List.mem_cons_self
    cases ls with
    | nil =>
      intro row hr
      obtain ⟨x, hx, rfl⟩ := List.mem_map.1 hr
      exact .cons (hl x hx) .nil
    | cons l2 ls =>
      have ih' := ih fun c h => hc c (List.mem_cons_of_mem _ h)
      simp only [rows] at ih' ⊢
      generalize rows (l2 :: ls) = rs at *
      clear ih hc
      induction l generalizing rs with
      | nil => intro row hr; simp at hr
      | cons x xs ihx =>
        cases rs with
        | nil => intro row hr; simp at hr
        | cons q qs =>
          intro row hr
          simp only [List.zipWith_cons_cons, List.mem_cons] at hr
          rcases hr with rfl | hr
          · exact .cons hl.head (ih' q List.mem_cons_self)
          · exact ihx hl.tail qs (fun r hr => ih' r (List.mem_cons_of_mem _ hr)) row hr

theorem forEachLoop_kp {env : EnvId} {f : V} {n : Nat} {cols : List (List V)} (he : pe.D env) (hf : Clean pe f)
    (hc : ∀ c ∈ cols, CleanL pe c) : KV Q pe (forEachLoop r env f n cols) := by
  induction n generalizing cols with
  | zero => exact kp_unmod
  | succ n ih =>
    unfold forEachLoop
    split
    · exact kp_pure trivial
    · split
      · exact kp_evalError
      · refine kp_bind (h (.eval env _) ⟨he, hf, clean_listOf.2 ?_⟩) fun _ _ => ih ?_
        · intro x hx
          obtain ⟨c, hcm, rfl⟩ := List.mem_map.1 hx
          refine clean_quoted.2 ?_
          cases c with
          | nil => trivial
          | cons y ys => exact (hc _ hcm).head
        · intro c hcm
          obtain ⟨d, hd, rfl⟩ := List.mem_map.1 hcm
          cases d with
          | nil => exact .nil
          | cons y ys => exact (hc _ hd).tail

theorem forEachArgs_kp {env : EnvId} {k : Nat} {xs : List V} (he : pe.D env) (hx : CleanL pe xs) :
    Keeps Q pe (fun cs => ∀ c ∈ cs, CleanL pe c) (forEachArgs r env k xs) := by
  induction k generalizing xs with
  | zero => exact kp_pure fun c hc => by cases hc
  | succ n ih =>
    cases xs with
    | nil => exact kp_evalError
    | cons x xs =>
      refine kp_bind (h (.eval env _) ⟨he, hx.head⟩) fun v hv => ?_
      split
      · refine kp_bind (ih hx.tail) fun vs hvs => kp_pure ?_
        intro c hc
        rcases List.mem_cons.1 hc with rfl | hc
        · exact clean_nodes hv
        · exact hvs c hc
      · exact kp_evalError

theorem evalForEach_kp {env : EnvId} {xs : List V} (he : pe.D env) (hx : CleanL pe xs) : KV Q pe (evalForEach r env xs) := by
  unfold evalForEach
  split
  · exact kp_abort
  · refine kp_bind (h (.eval env _) ⟨he, hx.head⟩) fun f hf => ?_
    split
    · exact kp_evalError
    · split
      · exact kp_evalError
      · exact kp_bind (forEachArgs_kp h he hx.tail) fun cols hc => forEachLoop_kp h he hf hc

variable {P : Prims σ} (hP : Honest Q pe P)
include hP

theorem applyQuoted_kp {env : EnvId} {f : V} {row : List V} (h0 : pe.D 0) (he : pe.D env) (hf : Clean pe f)
    (hr : CleanL pe row) : KV Q pe (applyQuoted P r env f row) := by
  unfold applyQuoted
  split
  · exact applyProc_kp h he hf.2.1 hf.2.2 (cleanL_quoted hr)
  · exact kp_bind (evalArgs_kp h he (cleanL_quoted hr)) fun vs hvs => callFunc_kp h hP h0 hvs
  · exact kp_evalError

theorem mapRows_kp {env : EnvId} {f : V} {rs : List (List V)} (h0 : pe.D 0) (he : pe.D env) (hf : Clean pe f)
    (hr : ∀ row ∈ rs, CleanL pe row) : Keeps Q pe (CleanL pe) (mapRows P r env f rs) := by
  induction rs with
  | nil => exact kp_pure .nil
  | cons x xs ih =>
    exact kp_bind (applyQuoted_kp h hP h0 he hf (hr x List.mem_cons_self)) fun v hv =>
      kp_bind (ih fun row hrow => hr row (List.mem_cons_of_mem _ hrow)) fun vs hvs => kp_pure (.cons hv hvs)

theorem evalMap_kp {env : EnvId} {xs : List V} (h0 : pe.D 0) (he : pe.D env) (hx : CleanL pe xs) : KV Q pe (evalMap P r env xs) := by
  unfold evalMap
  split
  · refine kp_bind (h (.eval env _) ⟨he, hx.head⟩) fun f hf => ?_
    split
    · exact kp_bind (evalLists_kp h he hx.tail) fun cols hc =>
        kp_bind (mapRows_kp h hP h0 he hf (clean_rows hc)) fun vs hvs => kp_pure (clean_listOf.2 hvs)
    · exact kp_evalError
  · exact kp_evalError

theorem callCC_kp {env : EnvId} {f : V} (h0 : pe.D 0) (he : pe.D env) (hf : Clean pe f) : KV Q pe (callCC P r env f) := by
  unfold callCC
  split
  · exact withCont_kp fun i => applyProc_kp h he hf.2.1 hf.2.2 (.cons trivial .nil)
  · exact withCont_kp fun i => kp_bind (evalArgs_kp h he (.cons trivial .nil)) fun vs hvs => callFunc_kp h hP h0 hvs
  · exact kp_evalError

theorem applyTo_kp {env : EnvId} {f : V} {xs : List V} (h0 : pe.D 0) (he : pe.D env) (hf : Clean pe f)
    (hx : CleanL pe xs) : KV Q pe (applyTo P r env f xs) := by
  unfold applyTo
  split
  · exact applyProc_kp h he hf.2.1 hf.2.2 hx
  · split
    · exact h (.eval env _) ⟨he, trivial, clean_listOf.2 hx⟩
    · split
      · split
        · exact kp_evalError
        · exact kp_bind (h (.eval env _) ⟨he, hx.head⟩) fun g hg => callCC_kp h hP h0 he hg
      · exact kp_bind (evalArgs_kp h he hx) fun vs hvs => callFunc_kp h hP h0 hvs
  · exact kp_evalError

omit h hP in
theorem clean_getLast {as : List V} (hx : CleanL pe as) : Clean pe (as.getLastD .nil) := by
  suffices g : ∀ d, Clean pe d → Clean pe (as.getLastD d) from g _ trivial
  induction as with
  | nil => intro d hd; exact hd
  | cons a as ih => intro d _; rw [List.getLastD_cons]; exact ih hx.tail a hx.head

omit h hP in
theorem clean_dropLast {as : List V} (hx : CleanL pe as) : CleanL pe as.dropLast :=
  fun x h => hx x ((List.dropLast_sublist as).subset h)

theorem evalApply_kp {env : EnvId} {xs : List V} (h0 : pe.D 0) (he : pe.D env) (hx : CleanL pe xs) :
    KV Q pe (evalApply P r env xs) := by
  unfold evalApply
  split
  · exact kp_evalError
  · refine kp_bind (h (.eval env _) ⟨he, hx.head⟩) fun f hf => ?_
    have ht := hx.tail
    split
    · split
      · exact kp_evalError
      · refine kp_bind (h (.eval env _) ⟨he, ht.head⟩) fun v hv => ?_
        split
        · exact dynthrow_kp h hv
        · exact kp_evalError
      · refine kp_bind (h (.eval env _) ⟨he, clean_getLast ht⟩) fun v hv => ?_
        split
        · exact kp_bind (evalArgs_kp h he (clean_dropLast ht)) fun vs hvs =>
            dynthrow_kp h (clean_listOf.2 (cleanL_append.2 ⟨hvs, clean_nodes hv⟩))
        · exact kp_evalError
    · split
      · split
        · exact kp_evalError
        · refine kp_bind (h (.eval env _) ⟨he, clean_getLast ht⟩) fun v hv => ?_
          split
          · exact kp_bind (evalArgs_kp h he (clean_dropLast ht)) fun vs hvs =>
              applyTo_kp h hP h0 he hf (cleanL_append.2 ⟨hvs, cleanL_quoted (clean_nodes hv)⟩)
          · exact kp_evalError
      · exact kp_evalError

omit h hP in
theorem clean_spread {v} (hv : Clean pe v) : CleanL pe (spread v) := by
  cases v with
  | pair a d => exact clean_nodes hv
  | nil => exact .nil
  | _ => exact .cons hv .nil

theorem evalCallWithValues_kp {env : EnvId} {xs : List V} (h0 : pe.D 0) (he : pe.D env) (hx : CleanL pe xs) :
    KV Q pe (evalCallWithValues P r env xs) := by
  unfold evalCallWithValues
  split
  · refine kp_bind (h (.eval env _) ⟨he, hx.head⟩) fun f hf => kp_bind (G := Clean pe) ?_ fun v hv =>
      kp_bind (h (.eval env _) ⟨he, hx.tail.head⟩) fun g hg => ?_
    · split
      · exact applyProc_kp h he hf.2.1 hf.2.2 .nil
      · exact callFunc_kp h hP h0 .nil
      · exact kp_evalError
    · split
      · exact applyProcV_kp h hg.2.1 hg.2.2 (clean_spread hv)
      · exact callFunc_kp h hP h0 (clean_spread hv)
      · exact kp_evalError
  · exact kp_evalError

omit hP

theorem evalDynamicWind_kp {env : EnvId} {xs : List V} (he : pe.D env) (hx : CleanL pe xs) : KV Q pe (evalDynamicWind r env xs) := by
  unfold evalDynamicWind
  split
  · refine kp_bind (h (.eval env _) ⟨he, hx.head⟩) fun i hi => kp_bind (h (.eval env _) ⟨he, hx.tail.head⟩) fun t ht =>
      kp_bind (h (.eval env _) ⟨he, hx.tail.tail.head⟩) fun o ho => ?_
    split
    · refine kp_bind (applyProc_kp h he hi.2.1 hi.2.2 .nil) fun _ _ => kp_getSt (fun _ _ _ _ _ => rfl) ?_
      intro s c
      refine kp_bind (kp_modSt ⟨fun _ _ _ _ _ => rfl, ?_⟩) fun _ _ => kp_bind (applyProc_kp h he ht.2.1 ht.2.2 .nil) fun rv hrv =>
        kp_bind (kp_modSt ⟨fun _ _ _ _ _ => rfl, ?_⟩) fun _ _ => kp_bind (applyProc_kp h he ho.2.1 ho.2.2 .nil) fun _ _ => kp_pure hrv
      · intro s' c'
        refine { c' with winds := ?_ }
        intro w hw
        rcases List.mem_cons.1 hw with rfl | hw
        · exact ⟨hi, ho⟩
        · exact c'.winds w hw
      · intro s' c'
        exact { c' with winds := c.winds }
    · exact kp_evalError
  · exact kp_abort

omit h in
theorem listToVec_kp {x : V} (hx : Clean pe x) : KV Q pe (listToVec (σ := σ) x) := by
  unfold listToVec
  split
  · exact kp_pure (clean_listOf.2 (clean_nodes hx))
  · exact kp_evalError

omit h in
theorem clean_listTail {xs : List V} {t} (hx : CleanL pe xs) (ht : Clean pe t) : Clean pe (listTail xs t) := by
  induction xs with
  | nil => exact ht
  | cons x xs ih => exact ⟨hx.head, ih hx.tail⟩

omit h in
theorem clean_appendTwo {a b} (ha : Clean pe a) (hb : Clean pe b) : Clean pe (appendTwo a b) := by
  unfold appendTwo
  split
  · exact hb
  · split
    · exact ha
    · exact clean_listTail (clean_nodes ha) hb

theorem quasi_kp {env : EnvId} {x : V} {d : Nat} (he : pe.D env) (hx : Clean pe x) : KV Q pe (quasi r env x d) := by
  fun_induction quasi r env x d
  all_goals try simp only [Clean] at hx
  all_goals first
    | exact kp_pure trivial
    | exact kp_evalError
    | exact kp_pure hx
    | exact h (.eval env _) ⟨he, by simp_all [Clean]⟩
    | skip
  all_goals try (rename_i ih; exact kp_bind (ih (by simp_all [Clean])) fun v hv => kp_pure (by simp [listOf, Clean, hv]))
  all_goals try (rename_i ih; exact kp_bind (ih (by simp_all [Clean])) fun v hv => listToVec_kp hv)
  all_goals try (rename_i ih2 ih1; exact kp_bind (ih2 (by simp_all [Clean])) fun v hv => kp_bind (ih1 (by simp_all [Clean])) fun w hw => kp_pure ⟨hv, hw⟩)
  · rename_i hu ih
    refine kp_bind (h (.eval env _) ⟨he, (clean_uncons hx.1.2 hu).1⟩) fun v hv => ?_
    split
    · exact kp_bind (ih hx.2) fun w hw => kp_pure (clean_appendTwo hv hw)
    · exact kp_evalError
  · rename_i ih2 ih1
    refine kp_bind (ih2 hx.1) fun v hv => kp_bind (ih1 hx.2) fun w hw => ?_
    split
    · exact kp_pure ⟨hv, hw⟩
    · exact kp_pure (by simp [listOf, Clean, hv, hw])

theorem evalBegin_kp {env : EnvId} {xs : List V} (he : pe.D env) (hx : CleanL pe xs) : KV Q pe (evalBegin r env xs) := by
  unfold evalBegin
  split
  · exact kp_pure trivial
  · exact evalSeq_kp h he hx

theorem evalCallCC_kp {env : EnvId} {xs : List V} (he : pe.D env) (hx : CleanL pe xs) : KV Q pe (evalCallCC r env xs) := by
  unfold evalCallCC
  split
  · exact kp_abort
  · exact kp_bind (h (.eval env _) ⟨he, hx.head⟩) fun f hf => withCont_kp fun i => h (.eval env _) ⟨he, by simp [listOf, Clean, hf]⟩

include hP

theorem evalForm_kp {f : Form} {env : EnvId} {x : V} (h0 : pe.D 0) (he : pe.D env) (hx : Clean pe x) :
    KV Q pe (evalForm P r f env x) := by
  have hn := clean_nodes hx
  unfold evalForm
  cases f <;> simp only
  case define => exact evalDefine_kp h he hx
  case defineMacro => exact evalDefineMacro_kp h he hx
  case defineModule => exact evalDefineModule_kp h hP h0
  case useModules => exact kp_getSt (fun _ _ _ _ _ => rfl) fun s c => useModules_kp h hP h0
  case «export» =>
    exact kp_bind (kp_modSt (inert_mods (g := fun ms c r => exportAll ms r c _) fun _ _ _ hm => cleanMods_exportAll hm)) fun _ _ =>
      kp_pure trivial
  case definePublic =>
    refine kp_bind (evalDefine_kp h he hx) fun v hv => ?_
    split
    · exact kp_bind (kp_modSt (inert_mods (g := fun ms c r => exportSym ms r c _) fun _ _ _ hm => cleanMods_export hm)) fun _ _ =>
        kp_pure hv
    · exact kp_pure hv
  case let_ => exact kp_bind (expandLet_kp hx) fun v hv => h (.eval env _) ⟨he, hv⟩
  case letStar => exact kp_bind (expandLetStar_kp hx) fun v hv => h (.eval env _) ⟨he, hv⟩
  case letrec => exact kp_bind (expandLetrec_kp hx) fun v hv => h (.eval env _) ⟨he, hv⟩
  case callcc => exact evalCallCC_kp h he hn
  case lambda => exact evalLambda_kp he hx
  case set => exact evalSet_kp h he hx
  case quote =>
    split
    · rename_i hu; exact kp_pure (clean_uncons hx hu).1
    · exact kp_pure trivial
  case quasiquote =>
    split
    · rename_i hu; exact quasi_kp h he (clean_uncons hx hu).1
    · exact kp_evalError
  case if_ => exact evalIf_kp h he hn
  case and => exact evalAnd_kp h he hn
  case or => exact evalOr_kp h he hn
  case delay => exact kp_delay he hx
  case cond =>
    split
    · exact kp_abort
    · exact evalCond_kp h he hn
  case case => exact evalCase_kp h he hn
  case begin => exact evalBegin_kp h he hn
  case forEach => exact evalForEach_kp h he hn
  case do_ => exact evalDo_kp h he hx
  case map => exact evalMap_kp h hP h0 he hn
  case apply => exact evalApply_kp h hP h0 he hn
  case callWithValues => exact evalCallWithValues_kp h hP h0 he hn
  case dynamicWind => exact evalDynamicWind_kp h he hn

theorem evalFuncCall_kp {env : EnvId} {n : Name} {a : Int} {x : V} (h0 : pe.D 0) (he : pe.D env) (hx : Clean pe x) :
    KV Q pe (evalFuncCall P r env n a x) := by
  unfold evalFuncCall
  split
  · exact evalApply_kp h hP h0 he (clean_nodes hx)
  · split
    · exact evalMap_kp h hP h0 he (clean_nodes hx)
    · split
      · split
        · exact kp_evalError
        · rename_i hu; exact callCC_kp h hP h0 he (clean_uncons hx hu).1
      · exact kp_bind (evalArgs_kp h he (clean_nodes hx)) fun vs hvs => callFunc_kp h hP h0 hvs

theorem evalPair_kp {env : EnvId} {x d : V} (h0 : pe.D 0) (he : pe.D env) (hx : Clean pe x) (hd : Clean pe d) :
    KV Q pe (evalPair P r env x d) := by
  unfold evalPair
  cases x with
  | sym y =>
    refine kp_getSt ?_ ?_
    · intro i s es hk c; simp only [repl_opValue c hk env he]
    · intro s c
      have key : ∀ val : Option V, (∀ v, val = some v → Clean pe v) →
          KV Q pe (match formOf y with
            | some f => evalForm P r f env d
            | Option.none => do
              let v ← (match val with
                | some v => pure v
                | Option.none => lookupSymbol env y)
              r (.eval env (.pair v d))) := by
        intro val hval
        split
        · exact evalForm_kp h hP h0 he hd
        · refine kp_bind (G := Clean pe) ?_ fun v hv => h (.eval env _) ⟨he, hv, hd⟩
          cases val with
          | some v => exact kp_pure (hval v rfl)
          | none => exact kp_lookup he
      cases hv : opValue s env y with
      | none => exact key Option.none (by simp)
      | some v =>
        have hc := clean_opValue c he hv
        cases v with
        | «macro» ps b me => exact macroCall_kp h he hc.2.1 hc.2.2 hd
        | _ => exact key (some _) (by rintro _ ⟨⟩; exact hc)
  | cont id =>
    refine kp_bind (G := Clean pe) ?_ fun v hv => dynthrow_kp h hv
    split
    · rename_i hu; exact h (.eval env _) ⟨he, (clean_uncons hd hu).1⟩
    · exact kp_pure trivial
  | proc ps b qe => exact applyProc_kp h he hx.2.1 hx.2.2 (clean_nodes hd)
  | func n a => exact evalFuncCall_kp h hP h0 he hd
  | pair a b => exact kp_bind (h (.eval env _) ⟨he, hx⟩) fun f hf => h (.eval env _) ⟨he, hf, hd⟩
  | «macro» ps b me => exact macroCall_kp h he hx.2.1 hx.2.2 hd
  | num _ => simp only; split <;> first | exact kp_pure trivial | exact kp_evalError
  | flo _ => simp only; split <;> first | exact kp_pure trivial | exact kp_evalError
  | str _ => simp only; split <;> first | exact kp_pure trivial | exact kp_evalError
  | chr _ => simp only; split <;> first | exact kp_pure trivial | exact kp_evalError
  | bool _ => simp only; split <;> first | exact kp_pure trivial | exact kp_evalError
  | nil => simp only; split <;> first | exact kp_pure trivial | exact kp_evalError
  | other _ => exact kp_unmod
  | _ => exact kp_evalError

theorem step_kp (h0 : pe.D 0) (t : Task) (ht : CleanT pe t) : KV Q pe (step P r t) := by
  cases t with
  | eval env x =>
    unfold step
    cases x with
    | sym y =>
      simp only
      split
      · exact kp_pure trivial
      · exact kp_lookup ht.1
    | pair a d => exact evalPair_kp h hP h0 ht.1 ht.2.1 ht.2.2
    | _ => exact kp_pure ht.2
  | expand env x => exact expandMacros_kp h ht.1 ht.2
  | doLoop de t res b st => exact doLoop_kp h ht.1 ht.2.1 ht.2.2.1 ht.2.2.2.1 ht.2.2.2.2
  | mexpand x => exact macroexpandLoop_kp h ht.1 ht.2

end

theorem mono_ev {P : Prims σ} (n : Nat) (t : Task) : Mono (ev P n t) := (lenRel σ).toStRel.ev_pres P n t

theorem hide_ev {Q : σ → Prop} {pe : Dom} {P : Prims σ} (hP : Honest Q pe P) (h0 : pe.D 0) (n : Nat) (t : Task)
    (ht : CleanT pe t) : KV Q pe (ev P n t) := by
  induction n generalizing t with
  | zero => exact kp_diverge
  | succ n ih => exact step_kp ⟨ih, mono_ev n⟩ hP h0 t ht

/-- Evaluation does not see, does not change and does not leak a frame that nothing refers to. -/
theorem hide_run {Q : σ → Prop} {pe : Dom} {P : Prims σ} (hP : Honest Q pe P) (h0 : pe.D 0) (t : Task)
    (ht : CleanT pe t) : KV Q pe (run P t) := by
  constructor
  · intro hU i s es hk c
    cases hr : run P t s with
    | some q =>
      obtain ⟨o, s'⟩ := q
      obtain ⟨n, hn⟩ := run_eq_some.1 hr
      have := (hide_ev hP h0 n t ht).eqv hU i s es hk c
      rw [hn] at this
      exact run_eq_some.2 ⟨n, this⟩
    | none =>
      cases hr' : run P t (repl i es s) with
      | none => rfl
      | some q =>
        obtain ⟨o, s'⟩ := q
        obtain ⟨n, hn⟩ := run_eq_some.1 hr'
        have := (hide_ev hP h0 n t ht).eqv hU i s es hk c
        rw [hn] at this
        cases hk : ev P n t s with
        | none => rw [hk] at this; cases this
        | some q' => rw [run_eq_some.2 ⟨n, hk⟩] at hr; cases hr
  · intro s o s' hU c hr
    obtain ⟨n, hn⟩ := run_eq_some.1 hr
    exact (hide_ev hP h0 n t ht).good s o s' hU c hn

theorem mono_run {P : Prims σ} (t : Task) : Mono (run P t) := (lenRel σ).toStRel.run_pres P t

theorem recOK_run {Q : σ → Prop} {pe : Dom} {P : Prims σ} (hP : Honest Q pe P) (h0 : pe.D 0) : RecOK Q pe (run P) :=
  ⟨fun t ht => hide_run hP h0 t ht, mono_run⟩

end Pscm.Ev
