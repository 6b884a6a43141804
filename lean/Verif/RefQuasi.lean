import Verif.RefMap
import Verif.EvQuasiProps
/-! # The interpreter simulates the reference semantics: `quasiquote` -/
namespace Pscm.Ref
open Pscm.Ev hiding Name Form evalForm
open Pscm.Ev.EM (modSt)
variable {σ : Type} {P : Prims σ} {A : Name → Int → Prop} {B : Builtins} {W W' : World} {st : Store} {s s' : St σ} {X0 : Fixed σ}

theorem Datum.Plain.ne {d : Datum} (h : d.Plain) : d.toV ≠ .sym "unquote" ∧ d.toV ≠ .sym "quasiquote" ∧ d.toV ≠ .sym "unquote-splicing" := by
  cases d with
  | sym x => simpa [Datum.toV, Datum.Plain] using h
  | _ => refine ⟨?_, ?_, ?_⟩ <;> (intro e; cases e)

theorem Datum.Plain.ordinary {d : Datum} (h : d.Plain) : Ordinary d.toV := by
  refine ⟨h.ne.1, h.ne.2.1, fun r e => ?_⟩
  cases d with
  | pair a d =>
    simp only [Datum.toV, V.pair.injEq] at e
    exact h.1.ne.2.2 e.1
  | _ => cases e

/-- A datum without the three symbols is copied. -/
theorem Datum.Plain.quasi {d : Datum} (h : d.Plain) {rec : Rec σ} {env : Nat} : Ev.quasi rec env d.toV 1 s = some (.ok d.toV, s) := by
  induction d generalizing s with
  | pair a d iha ihd =>
    simp only [Datum.toV]
    rw [quasi_pair h.1.ordinary]
    simp only [bind_apply, iha h.1, ihd h.2]
    rfl
  | _ => rfl

theorem Template.Ok.ordinary {t : Template} (h : t.Ok) : Ordinary t.toV := by
  cases t with
  | datum d => simp only [Template.toV]; simp only [Template.Ok] at h; exact h.ordinary
  | unquote e =>
    simp only [Template.toV, listOf]
    refine ⟨?_, ?_, fun r e => ?_⟩
    · intro e; cases e
    · intro e; cases e
    · simp at e
  | splice e t =>
    simp only [Template.toV, listOf]
    refine ⟨?_, ?_, fun r e => ?_⟩ <;> (try intro e) <;> cases e
  | pair a d =>
    simp only [Template.toV]
    simp only [Template.Ok] at h
    refine ⟨?_, ?_, fun r e => ?_⟩
    · intro e; cases e
    · intro e; cases e
    · simp only [V.pair.injEq] at e
      cases a with
      | datum d => simp only [Template.toV] at e; simp only [Template.Ok] at h; exact h.1.ne.2.2 e.1
      | _ => simp only [Template.toV, listOf] at e; cases e.1

theorem spliceMerge_eq (ws : List V) (r : V) : spliceMerge (listOf ws) r = ws.foldr V.pair r := by
  have hlt : ∀ l : List V, listTail l r = l.foldr .pair r := by
    intro l; induction l with
    | nil => rfl
    | cons x xs ih => rw [listTail, ih]; rfl
  have hnil : ∀ l : List V, listOf l = l.foldr .pair .nil := by
    intro l; induction l with
    | nil => rfl
    | cons x xs ih => rw [listOf, ih]; rfl
  simp only [spliceMerge, appendTwo]
  cases ws with
  | nil => rfl
  | cons v vs =>
    rw [if_neg (by intro h; cases h)]
    by_cases hr : r = .nil
    · rw [if_pos hr, hr, ← hnil]
    · rw [if_neg hr, nodes_listOf, hlt]

theorem foldr_rel {vs : List Val} {ws : List V} {u : Val} {x : V} (h : VRels A W vs ws) (hu : VRel A W u x) : VRel A W (vs.foldr Val.pair u) (ws.foldr V.pair x) := by
  induction vs generalizing ws with
  | nil => cases h; exact hu
  | cons v vs ih =>
    cases h with
    | cons h1 h2 => exact ⟨_, _, rfl, h1, ih h2⟩

theorem sim_template {N : Nat} (H : ∀ m, m < N → SimAt X0 P A B m) {n : Nat} (hn : n ≤ N) {env : Nat} {ρ : Env} (t : Template) (hok : t.Ok) (he : EnvAt W env ρ)
    (h : StRel X0 A W st s) : Sim X0 A (VRel A) W s (Ev.quasi (run P) env t.toV 1 s) (evalTemplate B n ρ t st) := by
  induction n generalizing t W st s with
  | zero => simp only [evalTemplate]; trivial
  | succ n ih =>
    cases t with
    | datum d =>
      simp only [Template.Ok] at hok
      simp only [evalTemplate, Template.toV, hok.quasi]
      exact Sim.ret (datum_rel d) h
    | unquote e =>
      simp only [Template.Ok] at hok
      simp only [evalTemplate, Template.toV]
      have : Ev.quasi (run P) env (listOf [.sym "unquote", e.toV]) 1 = run P (.eval env e.toV) := quasi_unq
      rw [this]
      exact H n (by omega) hok he h
    | splice e t =>
      simp only [Template.Ok] at hok
      simp only [evalTemplate, Template.toV]
      have : Ev.quasi (run P) env (.pair (listOf [.sym "unquote-splicing", e.toV]) t.toV) 1 = (run P (.eval env e.toV) >>= fun lv =>
          if isList lv = true then Ev.quasi (run P) env t.toV 1 >>= fun r => pure (spliceMerge lv r) else evalError "unquote-splicing requires a list") := quasi_splice
      rw [this]
      refine Sim.bind (H n (by omega) hok.1 he h) fun W1 s1 v w st1 ha hv h1 => ?_
      simp only []
      cases hi : v.items with
      | none => trivial
      | some vs =>
        obtain ⟨ws, hws, rfl⟩ := items_rel hv hi
        simp only [isList_listOf, if_true]
        refine Sim.bind (ih (by omega) t hok.2 (he.mono ha.le) h1) fun W2 s2 u x st2 ha2 hu h2 => ?_
        rw [spliceMerge_eq]
        exact Sim.ret (foldr_rel (hws.mono ha2.le) hu) h2
    | pair a d =>
      simp only [Template.Ok] at hok
      simp only [evalTemplate, Template.toV]
      rw [quasi_pair hok.1.ordinary]
      refine Sim.bind (ih (by omega) a hok.1 he h) fun W1 s1 v w st1 ha hv h1 => ?_
      refine Sim.bind (ih (by omega) d hok.2 (he.mono ha.le) h1) fun W2 s2 u x st2 ha2 hu h2 => ?_
      exact Sim.ret ⟨_, _, rfl, hv.mono ha2.le, hu⟩ h2

theorem sim_quasi {n : Nat} (H : ∀ m, m < n → SimAt X0 P A B m) {env : Nat} {ρ : Env} {t : Template}
    (hok : (Exp.quasi t).Ok) (he : EnvAt W env ρ) (h : StRel X0 A W st s) (hform : run P (.eval env (Exp.toV (.quasi t))) s = Ev.quasi (run P) env t.toV 1 s) :
    Sim X0 A (VRel A) W s (run P (.eval env (Exp.toV (.quasi t))) s) (eval B (n + 1) ρ (.quasi t) st) := by
  simp only [Exp.Ok] at hok
  rw [hform]
  simp only [eval]
  exact sim_template H (Nat.le_refl n) t hok he h

end Pscm.Ref
