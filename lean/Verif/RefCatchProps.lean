import Verif.RefCatch
/-!
# C147: a guarded evaluation gives the value, or what the handler says

Programs of the core language (C138) that also contain, at top level, `(catch #t (lambda () body ...) (lambda args handler))`; the semantics is in `RefCatchSpec`.
-/
namespace Pscm
open Pscm.Ref
open Pscm.Ev hiding Name Form evalForm
variable {σ : Type} {P : Prims σ} {F : FArith}

/-- The outcome of a program with guarded evaluations in the initial state of the interpreter. -/
def ItemsOutcome (P : Prims σ) (x : σ) (is : List Item) (o : Out V) : Prop :=
  ∃ s, SeqEval (Evals P) 0 (is.map Item.toV) (start x) o s

/-- The semantics of Scheme gives the program the answer `a`, in some number of steps. -/
def ItemsMean (is : List Item) (a : Ans Ref.Val) : Prop :=
  ∃ n, (evalItems standard n (initial builtinNames) is).bind (fun q => .val q.1) = a

theorem items_run (hP : HasStd P F) (x : σ) {is : List Item} (hok : ∀ i ∈ is, i.Ok Registered) (n : Nat) :
    Agrees (.bare x) Registered (evalSeq (run P) 0 (is.map Item.toV) (start x)) (evalItems standard n (initial builtinNames) is) :=
  sim_items (fun _ => std_implements hP) n is hok (start_rel x) rfl rfl

theorem itemsOutcome_iff {x : σ} {is : List Item} (hne : is ≠ []) {o : Out V} {s : St σ} (h : evalSeq (run P) 0 (is.map Item.toV) (start x) = some (o, s)) (o' : Out V) :
    ItemsOutcome P x is o' ↔ o' = o := by
  cases is with
  | nil => exact absurd rfl hne
  | cons i is =>
    have h1 := Pscm.Ev.evalSeq_iff.1 h
    exact ⟨fun ⟨s', h2⟩ => (SeqEval.det h2 h1).1, fun e => ⟨s, by rw [e]; exact h1⟩⟩

theorem items_ne {a : Ans Ref.Val} (ha : a ≠ .unknown) {is : List Item} (h : ItemsMean is a) : is ≠ [] := by
  rintro rfl
  obtain ⟨n, hn⟩ := h
  exact ha hn.symm

/-- **C147** A program with guarded evaluations that has a value has this value in the interpreter, and no other outcome. -/
theorem c147_value_partial (hP : HasStd P F) (x : σ) {is : List Item} (hok : ∀ i ∈ is, i.Ok Registered) {v : Ref.Val} (h : ItemsMean is (.val v)) :
    ∃ w, Same v w ∧ ∀ o, ItemsOutcome P x is o ↔ o = .ok w := by
  have hne := items_ne (by simp) h
  obtain ⟨n, hn⟩ := h
  have hs := items_run hP x hok n
  cases he : evalItems standard n (initial builtinNames) is with
  | error => rw [he] at hn; cases hn
  | unknown => rw [he] at hn; cases hn
  | val q =>
    rw [he] at hn hs
    obtain ⟨u, st⟩ := q
    cases hn
    obtain ⟨w, s', W', hm, hv, _⟩ := hs
    exact ⟨w, hv.same, itemsOutcome_iff hne hm⟩

/-- **C147** A program that is an error outside its guarded evaluations, or in a handler, ends in an error. -/
theorem c147_error_partial (hP : HasStd P F) (x : σ) {is : List Item} (hok : ∀ i ∈ is, i.Ok Registered) {t : Option Store} (h : ItemsMean is (.error t)) :
    ∃ k a, ∀ o, ItemsOutcome P x is o ↔ o = .stop (.err none k a) := by
  have hne := items_ne (by simp) h
  obtain ⟨n, hn⟩ := h
  have hs := items_run hP x hok n
  cases he : evalItems standard n (initial builtinNames) is with
  | val q => rw [he] at hn; cases hn
  | unknown => rw [he] at hn; cases hn
  | error o' =>
    rw [he] at hs
    obtain ⟨k, a, s', hm⟩ := hs
    exact ⟨k, a, itemsOutcome_iff hne hm⟩

/-- **C147** With a constant as handler, in terms of the semantics of the guarded call alone: the value of the guarded expression is the value of the call of the
thunk if that has one, and the constant if it is an error. -/
theorem c147_default_partial (hP : HasStd P F) (x : σ) {body : List Exp} {a : Ref.Name} {c : Const} (hb : (Exp.lam [] none body).Ok) (ha : IsVar a) :
    (∀ v, Means [.exp (.app (.lam [] none body) [])] (.val v) → ∃ w, Same v w ∧ ∀ o, ItemsOutcome P x [.guarded body a (.const c)] o ↔ o = .ok w) ∧
    (∀ st, Means [.exp (.app (.lam [] none body) [])] (.error (some st)) → ∀ o, ItemsOutcome P x [.guarded body a (.const c)] o ↔ o = .ok c.toV) := by
  have hok : ∀ i ∈ [Item.guarded body a (.const c)], i.Ok Registered := by
    intro i hi
    cases List.mem_singleton.1 hi
    exact ⟨hb, ha, trivial⟩
  have hg : (initial builtinNames).globals.lookup "catch" = some (.prim "catch") := by
    rw [lookup_initial, if_pos (by decide +kernel)]
  constructor
  · rintro v ⟨n, hn⟩
    refine c147_value_partial hP x hok ⟨n, ?_⟩
    simp only [evalProgram, evalForm] at hn
    simp only [evalItems, evalItem, hg]
    cases he : eval standard n [] (.app (.lam [] none body) []) (initial builtinNames) with
    | val q => rw [he] at hn; exact hn
    | error o => rw [he] at hn; cases hn
    | unknown => rw [he] at hn; cases hn
  · rintro st ⟨n, hn⟩
    have hv : ItemsMean [.guarded body a (.const c)] (.val c.toVal) := by
      refine ⟨n, ?_⟩
      simp only [evalProgram, evalForm] at hn
      simp only [evalItems, evalItem, hg]
      cases he : eval standard n [] (.app (.lam [] none body) []) (initial builtinNames) with
      | val q => rw [he] at hn; cases hn
      | unknown => rw [he] at hn; cases hn
      | error o =>
        rw [he] at hn
        cases n with
        | zero => cases he
        | succ n =>
          have : o = some st := by cases hn; rfl
          rw [this]
          rfl
    obtain ⟨w, hw, h⟩ := c147_value_partial hP x hok hv
    have : w = c.toV := by cases c <;> exact hw
    rw [← this]
    exact h

/-! ## Cases -/

namespace RefDemo

/-- `(define x 0)`, `(catch #t (lambda () (set! x 5) (car 1)) (lambda args (+ x 1)))`, `(list x (catch ...))` -/
def guardedDemo : List Item :=
  [.form (.define "x" (.const (.num 0))),
   .guarded [.set "x" (.const (.num 5)), .app (.var "car") [.const (.num 1)]] "args" (.set "x" (.app (.var "+") [.var "x", .const (.num 1)])),
   .guarded [.app (.var "*") [.var "x", .const (.num 7)]] "args" (.const (.num 0))]

end RefDemo

open RefDemo in
/-- The effects before the error are there in the handler, and the program goes on. -/
example (hP : HasStd P F) (x : σ) : ItemsOutcome P x guardedDemo (.ok (.num 42)) := by
  obtain ⟨w, hw, h⟩ := c147_value_partial hP x (is := guardedDemo)
    (by simp [guardedDemo, Item.Ok, Form.Ok, Exp.Ok, Exp.BodyOk, defs, Exp.Oks]; decide) (v := .num 42) ⟨20, rfl⟩
  cases hw
  exact (h _).2 rfl

/-- An error in the handler is an error. -/
example (hP : HasStd P F) (x : σ) : ∃ k a, ItemsOutcome P x [.guarded [.app (.var "car") [.const (.num 1)]] "args" (.app (.var "cdr") [.const (.num 1)])] (.stop (.err none k a)) := by
  obtain ⟨k, a, h⟩ := c147_error_partial hP x (is := [.guarded [.app (.var "car") [.const (.num 1)]] "args" (.app (.var "cdr") [.const (.num 1)])])
    (by simp [Item.Ok, Exp.Ok, Exp.BodyOk, defs, Exp.Oks]; decide) ⟨20, rfl⟩
  exact ⟨k, a, (h _).2 rfl⟩

/-- Both cases of `c147_default_partial`: `(car 1)` and `(car '(2))` with 9 as the default. -/
example (hP : HasStd P F) (x : σ) :
    ItemsOutcome P x [.guarded [.app (.var "car") [.const (.num 1)]] "args" (.const (.num 9))] (.ok (.num 9)) ∧
    ItemsOutcome P x [.guarded [.app (.var "car") [.quote (.pair (.num 2) .nil)]] "args" (.const (.num 9))] (.ok (.num 2)) := by
  constructor
  · exact ((c147_default_partial hP x (by simp [Exp.Ok, Exp.BodyOk, defs, Exp.Oks]; decide) (by decide)).2 _ ⟨20, rfl⟩ _).2 rfl
  · obtain ⟨w, hw, h⟩ := (c147_default_partial hP x (c := .num 9) (a := "args") (body := [.app (.var "car") [.quote (.pair (.num 2) .nil)]])
      (by simp [Exp.Ok, Exp.BodyOk, defs, Exp.Oks]; decide) (by decide)).1 (.num 2) ⟨20, rfl⟩
    cases hw
    exact (h _).2 rfl

end Pscm
