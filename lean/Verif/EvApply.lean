import Verif.EvRules
import Verif.EvLemmas
/-! # Lemmas about procedure application -/
namespace Pscm.Ev
variable {σ α β : Type}
open EM (stop getSt modSt)

theorem splitParams_paramList (ps : List Name) (r : Option Name) :
    splitParams (paramList ps r) = (ps.map V.sym, r) := by
  induction ps with
  | nil => cases r <;> rfl
  | cons p ps ih => simp [paramList, splitParams, ih]

/-- `quote` has its usual meaning in `env`. -/
def QuoteOk (s : St σ) (env : EnvId) : Prop := ∀ v, opValue s env "quote" = some v → isMacro v = false

theorem NoMacro.quoteOk {s : St σ} (h : NoMacro s "quote") (env : EnvId) : QuoteOk s env := fun _ hv => h.op hv

theorem opValue_congr {s s' : St σ} {env : EnvId} {x : Name} (h1 : s'.frames[env]? = s.frames[env]?)
    (h0 : s'.frames[0]? = s.frames[0]?) (hm : s'.mods = s.mods) (hc : s'.cur = s.cur) (hr : s'.root = s.root) :
    opValue s' env x = opValue s env x := by
  unfold opValue
  simp only [lookOwn, h1, h0, hm, hc, hr]

theorem opValue_updFrame {s : St σ} {env pe : EnvId} {x : Name} {g} (h : env ≠ pe) (h0 : 0 ≠ pe) :
    opValue { s with frames := updFrame s.frames pe g } env x = opValue s env x := by
  apply opValue_congr <;> try rfl
  · show (updFrame s.frames pe g)[env]? = _
    rw [getElem?_updFrame]; simp [h]
  · show (updFrame s.frames pe g)[0]? = _
    rw [getElem?_updFrame]; simp [h0]

theorem run_quoted {P : Prims σ} {env v} {s : St σ} (h : QuoteOk s env) :
    run P (.eval env (quoted v)) s = some (.ok v, s) := by
  rw [run_eq]
  show evalPair P (run P) env (.sym "quote") (.pair v .nil) s = _
  unfold evalPair
  simp only [getSt_bind]
  cases hv : opValue s env "quote" with
  | none => rfl
  | some w =>
    have := h w hv
    cases w <;> first | rfl | cases this

theorem evals_quoted {P : Prims σ} {env v} {s : St σ} (h : QuoteOk s env) : Evals P env (quoted v) s (.ok v) s :=
  evals_iff.2 (run_quoted h)

theorem evalArgs_quoted {P : Prims σ} {env} {s : St σ} (h : QuoteOk s env) (vs : List V) :
    evalArgs (run P) env (vs.map quoted) s = some (.ok vs, s) := by
  induction vs with
  | nil => rfl
  | cons v vs ih =>
    simp only [List.map_cons, evalArgs, bind_apply, run_quoted h, ih]
    rfl

theorem updFrame_updFrame (fr : List Frame) (e : Nat) (g h) :
    updFrame (updFrame fr e g) e h = updFrame fr e (h ∘ g) := by
  apply List.ext_getElem?
  intro i
  simp only [getElem?_updFrame]
  cases fr[i]? with
  | none => rfl
  | some f => by_cases hi : i = e <;> simp [hi]

theorem updFrame_congr (fr : List Frame) (e : Nat) (g h) (f : Frame) (hf : fr[e]? = some f) (hh : g f.entries = h f.entries) :
    updFrame fr e g = updFrame fr e h := by
  unfold updFrame
  rw [hf]
  simp only [hh]

theorem upsert_fresh {x : Name} {v : V} {es : List (Name × V)} (h : x ∉ es.map Prod.fst) : upsert x v es = (x, v) :: es := by
  unfold upsert
  rw [if_neg]
  intro hh
  obtain ⟨w, hw⟩ := hasEntry_iff.1 hh
  rw [lookup_eq_findEntry] at hw
  exact h (List.mem_map.2 ⟨_, findEntry_mem hw, rfl⟩)

theorem bindOwn_apply {s : St σ} (pe x v) :
    (bindOwn pe x v : EM σ Unit) s = some (.ok (), { s with frames := updFrame s.frames pe (upsert x v) }) := rfl

/-- Binding values by position. -/
theorem bindValues_apply {s : St σ} {pe : EnvId} {f : Frame} (ps : List Name) (rest : Option Name) (vs : List V)
    (hf : s.frames[pe]? = some f) (hnd : (ps ++ rest.toList).Nodup)
    (hdis : ∀ x ∈ ps ++ rest.toList, x ∉ f.entries.map Prod.fst) (hc : CountOk ps rest vs.length) :
    bindValues pe (ps.map V.sym) rest vs s =
      some (.ok (), { s with frames := updFrame s.frames pe fun es => callBindings ps rest vs ++ es }) := by
  induction ps generalizing s f vs with
  | nil =>
    cases rest with
    | none =>
      have : vs = [] := by simpa [CountOk] using hc
      subst this
      simp only [List.map_nil, bindValues, pure_apply, callBindings, List.zip_nil_left, List.nil_append, List.reverse_nil]
      have : updFrame s.frames pe (fun es => es) = s.frames := by
        apply List.ext_getElem?
        intro i
        rw [getElem?_updFrame]
        cases s.frames[i]? with
        | none => rfl
        | some f => by_cases hi : i = pe <;> simp [hi]
      rw [this]
    | some r =>
      simp only [List.map_nil, bindValues, bindOwn_apply]
      congr 3
      rw [updFrame_congr _ _ _ _ f hf]
      rw [upsert_fresh (hdis r (by simp))]
      simp [callBindings]
  | cons p ps ih =>
    cases vs with
    | nil => cases rest <;> simp [CountOk] at hc
    | cons v vs =>
      simp only [List.map_cons, bindValues, bind_apply, bindOwn_apply]
      have hp := hdis p (by simp)
      have hnd' : (ps ++ rest.toList).Nodup ∧ p ∉ ps ++ rest.toList := by
        simp only [List.cons_append, List.nodup_cons] at hnd
        exact ⟨hnd.2, hnd.1⟩
      have hf' : (updFrame s.frames pe (upsert p v))[pe]? = some { f with entries := (p, v) :: f.entries } := by
        rw [getElem?_updFrame, hf]; simp [upsert_fresh hp]
      rw [ih (s := { s with frames := updFrame s.frames pe (upsert p v) }) vs hf' hnd'.1 ?_ ?_]
      · congr 3
        simp only
        rw [updFrame_updFrame]
        rw [updFrame_congr _ _ _ _ f hf]
        simp only [Function.comp, upsert_fresh hp]
        cases rest <;> simp [callBindings]
      · intro x hx
        simp only [List.map_cons, List.mem_cons, not_or]
        refine ⟨?_, hdis x (by simp only [List.cons_append, List.mem_cons]; exact .inr hx)⟩
        rintro rfl
        exact hnd'.2 hx
      · cases rest with
        | none => simpa [CountOk] using hc
        | some r => simpa [CountOk] using hc

/-- On quoted arguments the calling convention of `apply_procedure` is that of `apply_procedure_with_values`. -/
theorem bindParams_quoted {P : Prims σ} {s : St σ} {env pe : EnvId} (ps : List Name) (rest : Option Name) (vs : List V)
    (hq : QuoteOk s env) (he : env ≠ pe) (h0 : 0 ≠ pe) (hc : CountOk ps rest vs.length) :
    bindParams (run P) env pe (ps.map V.sym) rest (vs.map quoted) s = bindValues pe (ps.map V.sym) rest vs s := by
  induction ps generalizing s vs with
  | nil =>
    cases rest with
    | none =>
      have : vs = [] := by simpa [CountOk] using hc
      subst this
      rfl
    | some r => simp only [List.map_nil, bindParams, bindValues, bind_apply, evalArgs_quoted hq]
  | cons p ps ih =>
    cases vs with
    | nil => cases rest <;> simp [CountOk] at hc
    | cons v vs =>
      simp only [List.map_cons, bindParams, bindValues, bind_apply, run_quoted hq, bindOwn_apply]
      apply ih
      · intro w hw
        rw [opValue_updFrame he h0] at hw
        exact hq w hw
      · cases rest <;> simpa [CountOk] using hc

theorem newEnv_apply {s : St σ} {p : EnvId} {f : Frame} (h : s.frames[p]? = some f) :
    (newEnv p : EM σ Nat) s =
      some (.ok s.frames.length, { s with frames := s.frames ++ [⟨[], some p, f.modl⟩] }) := by
  simp only [newEnv, h]

theorem updFrame_push (fr : List Frame) (f : Frame) (g) :
    updFrame (fr ++ [f]) fr.length g = fr ++ [{ f with entries := g f.entries }] := by
  unfold updFrame
  simp

theorem seq_nodes {P : Prims σ} {env body s o s'} (h : SeqEval (Evals P) env body s o s') :
    evalSeq (run P) env (nodes (listOf body)) s = some (o, s') := by
  rw [nodes_listOf]
  cases body with
  | nil => cases h
  | cons x xs => exact evalSeq_iff.2 h

theorem applyProcV_closure {P : Prims σ} {s s' : St σ} {o ps rest body penv} {f : Frame} {vs : List V}
    (hnd : (ps ++ rest.toList).Nodup) (hc : CountOk ps rest vs.length) (hf : s.frames[penv]? = some f)
    (h : SeqEval (Evals P) s.frames.length body
        { s with frames := s.frames ++ [⟨callBindings ps rest vs, some penv, f.modl⟩] } o s') :
    applyProcV (run P) (paramList ps rest) (listOf body) penv vs s = some (o, s') := by
  unfold applyProcV
  simp only [bind_apply, newEnv_apply hf, splitParams_paramList]
  rw [bindValues_apply (f := ⟨[], some penv, f.modl⟩) ps rest vs (by simp) hnd (by simp) hc]
  simp only [updFrame_push, List.append_nil]
  exact seq_nodes h

theorem applyProc_closure {P : Prims σ} {s s' : St σ} {o ps rest body penv env} {f : Frame} {vs : List V}
    (hq : QuoteOk s env) (he : env < s.frames.length)
    (hnd : (ps ++ rest.toList).Nodup) (hc : CountOk ps rest vs.length) (hf : s.frames[penv]? = some f)
    (h : SeqEval (Evals P) s.frames.length body
        { s with frames := s.frames ++ [⟨callBindings ps rest vs, some penv, f.modl⟩] } o s') :
    applyProc (run P) env (paramList ps rest) (listOf body) penv (vs.map quoted) s = some (o, s') := by
  unfold applyProc
  simp only [bind_apply, newEnv_apply hf, splitParams_paramList]
  have hq' : QuoteOk { s with frames := s.frames ++ [⟨[], some penv, f.modl⟩] } env := by
    intro w hw
    refine hq w ?_
    rw [← hw]
    symm
    apply opValue_congr <;> try rfl
    · show (s.frames ++ _)[env]? = _
      rw [List.getElem?_append_left he]
    · show (s.frames ++ _)[0]? = _
      rw [List.getElem?_append_left (by omega)]
  rw [bindParams_quoted ps rest vs hq' (by omega) (by omega) hc]
  rw [bindValues_apply (f := ⟨[], some penv, f.modl⟩) ps rest vs (by simp) hnd (by simp) hc]
  simp only [updFrame_push, List.append_nil]
  exact seq_nodes h

theorem callPrim_ext {P : Prims σ} {rec : Rec σ} {n vs} (h : n ∉ interpreterNames) : callPrim P rec n vs = extPrim P rec n vs := by
  simp only [interpreterNames, List.mem_cons, not_or, List.not_mem_nil, not_false_eq_true, and_true] at h
  obtain ⟨h1, h2, h3, h4, h5, h6, h7, h8, h9, h10, h11, h12, h13, h14, h15, g1, g2, g3, g4, g5, g6, g7, g8, g9, g10⟩ := h
  unfold callPrim isModPrim isUnmodelled
  simp [h1, h2, h3, h4, h5, h6, h7, h8, h9, h10, g1, g2, g3, g4, g5, g6, g7, g8, g9, g10]

theorem callFunc_ext {P : Prims σ} {rec : Rec σ} {n a vs} (h : n ∉ interpreterNames)
    (ha : a = (vs.length : Int) ∧ vs.length ≤ 3 ∨ a = -2) : callFunc P rec n a vs = extPrim P rec n vs := by
  unfold callFunc
  rw [callPrim_ext h]
  simp only [interpreterNames, List.mem_cons, not_or, List.not_mem_nil, not_false_eq_true, and_true] at h
  obtain ⟨h1, h2, h3, h4, h5, h6, h7, h8, h9, h10, h11, h12, h13, h14, h15, g1, g2, g3, g4, g5, g6, g7, g8, g9, g10⟩ := h
  rcases ha with ⟨rfl, hle⟩ | rfl
  · rw [if_pos (by omega), if_pos rfl]
  · rw [if_neg (by omega), if_neg (by omega), if_pos rfl]
    simp [isEvalOnly, h11, h12, h13, h14, h15]

theorem runPrim_of {P : Prims σ} {t s o s'} (h : Runs (Evals P) t s o s') : runPrim (run P) t s = some (o, s') := by
  induction h with
  | ret => rfl
  | raise => rfl
  | back h1 _ ih => simp only [runPrim, bind_apply, modSt_apply, run_eq_some.2 h1, getSt_apply, ih]
  | backStop h1 => simp only [runPrim, bind_apply, modSt_apply, run_eq_some.2 h1]

theorem extPrim_of {P : Prims σ} {n vs s o s'} (h : Runs (Evals P) (P.call n vs s.ext) s o s') :
    extPrim P (run P) n vs s = some (o, s') := by
  simp only [extPrim, bind_apply, getSt_apply, runPrim_of h]

theorem Applies.values {P : Prims σ} {f vs s o s'} (h : Applies P f vs s o s') :
    (match f with
      | .proc ps b e => applyProcV (run P) ps b e vs
      | .func n a => callFunc P (run P) n a vs
      | _ => stop .unmod : EM σ V) s = some (o, s') := by
  cases h with
  | closure hnd hc hf h => exact applyProcV_closure hnd hc hf h
  | builtin hn ha hp => simp only [callFunc_ext hn ha, extPrim_of hp]

theorem Applies.quoted {P : Prims σ} {f vs s o s' env} (h : Applies P f vs s o s') (hq : QuoteOk s env)
    (he : env < s.frames.length) : applyQuoted P (run P) env f vs s = some (o, s') := by
  unfold applyQuoted
  cases h with
  | closure hnd hc hf h => exact applyProc_closure hq he hnd hc hf h
  | builtin hn ha hp =>
    simp only [bind_apply, evalArgs_quoted hq, callFunc_ext hn ha, extPrim_of hp]

theorem Applies.applicable {P : Prims σ} {f vs s o s'} (h : Applies P f vs s o s') : isApplicable f = true := by
  cases h <;> rfl

end Pscm.Ev

namespace Pscm.Ev
variable {σ : Type}

/-- A call expression with a procedure value in operator position and quoted operands. -/
theorem Applies.call {P : Prims σ} {f vs s o s' env} (h : Applies P f vs s o s') (hq : QuoteOk s env)
    (he : env < s.frames.length) : Evals P env (.pair f (listOf (vs.map Ev.quoted))) s o s' := by
  rw [evals_step]
  show evalPair P (run P) env f _ s = _
  have hk := h.quoted hq he
  unfold applyQuoted at hk
  cases h with
  | closure hnd hc hf h => simpa only [evalPair, nodes_listOf] using hk
  | builtin hn ha hp =>
    simp only [interpreterNames, List.mem_cons, not_or, List.not_mem_nil, not_false_eq_true, and_true] at hn
    obtain ⟨h1, h2, h3, h4, h5, h6, h7, h8, h9, h10, h11, h12, h13, h14, h15, g1, g2, g3, g4, g5, g6, g7, g8, g9, g10⟩ := hn
    simp only [evalPair, evalFuncCall, isCallCC, h11, h12, h13, h14, h15, nodes_listOf]
    simpa using hk

end Pscm.Ev
