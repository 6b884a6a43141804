import Verif.ListProps
/-!
# C11, continued: `cadr`, `cddr`, `caddr`
-/
namespace Pscm
open Spec

theorem Spec.Path.newId {h : Heap} {p : Option Addr} {ns : List (Addr × Node)} (hp : Path h p ns) (k : Nat) :
    Path { h with nextId := k } p ns := by
  induction ns generalizing p with
  | nil => exact hp
  | cons x r ih => obtain ⟨a, n⟩ := x; exact ⟨hp.1, hp.2.1, ih hp.2.2⟩

/-- The cdr of a proper list of at least one element is a proper list of the rest. -/
theorem cdr_proper {h : Heap} {o : Obj} {as : List Addr} {x : Obj} {xs : List Obj} (hp : ProperList h o as (x :: xs)) :
    ∃ t k, cdr o h = (.ok t, { h with nextId := k }) ∧ h.nextId ≤ k ∧ ProperList { h with nextId := k } t as.tail xs := by
  obtain ⟨p, ns, hs, hpath, ha, hx, hnd⟩ := hp
  match ns, hx with
  | (a, n) :: r, hx =>
    obtain ⟨hpa, hna, hr⟩ := hpath
    simp only [List.map_cons, List.cons.injEq] at hx
    have hv : o.v = .list a := by
      cases hov : o.v <;> simp [start?, hov] at hs <;> simp_all
    subst ha
    match r, hr with
    | [], hr =>
      refine ⟨Obj.nil, h.nextId, ?_, Nat.le_refl _, none, [], rfl, rfl, rfl, by simpa using hx.2, by simp⟩
      simp only [cdr, hv]
      rw [M.bind_ok (getNode_ok hna)]
      simp only [Path] at hr
      rw [hr]; rfl
    | (b, m) :: r', hr =>
      obtain ⟨hb, hmb, hr'⟩ := hr
      have hmd : m.dotted = false := hnd (b, m) (by simp)
      refine ⟨⟨h.nextId, .list b⟩, h.nextId + 1, ?_, Nat.le_succ _, some b, (b, m) :: r', rfl, ⟨rfl, hmb, hr'.newId _⟩, rfl, hx.2, ?_⟩
      · simp only [cdr, hv]
        rw [M.bind_ok (getNode_ok hna), hb]
        simp only
        rw [M.bind_ok (getNode_ok hmb), hmd]
        rfl
      · intro z hz; exact hnd z (by simp only [List.mem_cons] at hz ⊢; exact Or.inr hz)

theorem cdr_nil {h : Heap} {o : Obj} {as : List Addr} (hp : ProperList h o as []) :
    cdr o h = (.err .typeError, h) ∧ car o h = (.err .typeError, h) ∧ cadr o h = (.err .typeError, h) := by
  obtain ⟨p, ns, hs, hpath, ha, hx, hnd⟩ := hp
  cases ns with
  | cons y r => simp at hx
  | nil =>
    simp only [Path] at hpath
    subst hpath
    have hv : o.v = .nil := by
      cases hov : o.v <;> simp [start?, hov] at hs
      rfl
    simp [cdr, car, cadr, hv, M.throw]

theorem car_proper {h : Heap} {o : Obj} {as : List Addr} {x : Obj} {xs : List Obj} (hp : ProperList h o as (x :: xs)) :
    car o h = (.ok x, h) := by
  obtain ⟨p, ns, hs, hpath, ha, hx, hnd⟩ := hp
  match ns, hx with
  | (a, n) :: r, hx =>
    obtain ⟨hpa, hna, hr⟩ := hpath
    simp only [List.map_cons, List.cons.injEq] at hx
    have hv : o.v = .list a := by
      cases hov : o.v <;> simp [start?, hov] at hs <;> simp_all
    simp only [car, hv]
    rw [M.bind_ok (getNode_ok hna), hx.1]; rfl

/-- C11: on a proper list `cadr` is the second element, `caddr` the third, `cddr` the list without the first two, and each is a type error
when the list is too short. -/
theorem c11_cxr_partial (h : Heap) (o : Obj) (as : List Addr) (xs : List Obj) (hp : ProperList h o as xs) :
    cadr o h = ((match xs[1]? with | some y => .ok y | none => .err .typeError), h) ∧
    (caddr o h).1 = (match xs[2]? with | some z => .ok z | none => .err .typeError) ∧
    (2 ≤ xs.length → ∃ t h', cddr o h = (.ok t, h') ∧ Ext h h' ∧ ProperList h' t (as.drop 2) (xs.drop 2)) ∧
    (xs.length < 2 → (cddr o h).1 = .err .typeError) := by
  have idExt : ∀ (g : Heap) k, g.nextId ≤ k → Ext g { g with nextId := k } := fun g k hk => ⟨fun _ _ => rfl, Nat.le_refl _, rfl, rfl, hk⟩
  match xs, hp with
  | [], hp =>
    obtain ⟨e1, e2, e3⟩ := cdr_nil hp
    refine ⟨e3, ?_, fun hl => absurd hl (by simp), fun _ => ?_⟩
    · simp only [caddr, M.bind_app, e1]; rfl
    · simp only [cddr, M.bind_app, e1]
  | [x], hp =>
    obtain ⟨t, k, e, hk, ht⟩ := cdr_proper hp
    obtain ⟨e1, e2, e3⟩ := cdr_nil ht
    refine ⟨?_, ?_, fun hl => absurd hl (by simp), fun _ => ?_⟩
    · obtain ⟨p, ns, hs, hpath, ha, hx, hnd⟩ := hp
      match ns, hx with
      | (a, n) :: r, hx =>
        obtain ⟨hpa, hna, hr⟩ := hpath
        simp only [List.map_cons, List.cons.injEq, List.map_eq_nil_iff] at hx
        obtain ⟨_, rfl⟩ := hx
        have hv : o.v = .list a := by
          cases hov : o.v <;> simp [start?, hov] at hs <;> simp_all
        simp only [cadr, hv]
        rw [M.bind_ok (getNode_ok hna)]
        simp only [Path] at hr
        rw [hr]; rfl
    · simp only [caddr, M.bind_app, e, e1]; rfl
    · simp only [cddr, M.bind_app, e, e1]
  | x :: y :: r, hp =>
    obtain ⟨t, k, e, hk, ht⟩ := cdr_proper hp
    obtain ⟨t2, k2, e2, hk2, ht2⟩ := cdr_proper ht
    refine ⟨?_, ?_, fun _ => ⟨t2, { h with nextId := k2 }, ?_, idExt h k2 (Nat.le_trans hk hk2), ?_⟩, fun hl => absurd hl (by simp)⟩
    · obtain ⟨p, ns, hs, hpath, ha, hx, hnd⟩ := hp
      match ns, hx with
      | (a, n) :: (b, m) :: r', hx =>
        obtain ⟨hpa, hna, hb, hmb, hr⟩ := hpath
        simp only [List.map_cons, List.cons.injEq] at hx
        have hv : o.v = .list a := by
          cases hov : o.v <;> simp [start?, hov] at hs <;> simp_all
        simp only [cadr, hv]
        rw [M.bind_ok (getNode_ok hna)]
        simp only [hb]
        rw [M.bind_ok (getNode_ok hmb), hx.2.1]; rfl
    · cases r with
      | nil =>
        have := (cdr_nil ht2).2.1
        simp only [caddr, M.bind_app, e, e2, this]; rfl
      | cons z r =>
        have := car_proper ht2
        simp only [caddr, M.bind_app, e, e2, this]; rfl
    · simp only [cddr, M.bind_app, e, e2]
    · have : as.drop 2 = as.tail.tail := by cases as with
        | nil => rfl
        | cons a as => cases as <;> rfl
      rw [this]; exact ht2

example : ProperList exH exL123 [0, 1, 2] [exNum 1, exNum 2, exNum 3] ∧ (cadr exL123 exH).1 = .ok (exNum 2) ∧
    (caddr exL123 exH).1 = .ok (exNum 3) := by
  refine ⟨⟨some 0, [(0, ⟨exNum 1, some 1, false⟩), (1, ⟨exNum 2, some 2, false⟩), (2, ⟨exNum 3, none, false⟩)],
    rfl, ⟨rfl, rfl, rfl, rfl, rfl, rfl, rfl⟩, rfl, rfl, by simp⟩, rfl, rfl⟩

/-- C11 (violation): `(cadr '(1 . 2))` is `2`, although `(car (cdr '(1 . 2)))` is a type error. -/
theorem c11_cadr_counterexample :
    (cadr exDot exH).1 = .ok (exNum 2) ∧ ((do car (← cdr exDot)) exH).1 = .err .typeError := ⟨rfl, rfl⟩

end Pscm
