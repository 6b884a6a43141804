import Verif.ReEnterLemmas

/-!
# C128, C129, C130: calls that are re-entered through continuations

The specification of histories (`path`, `way`, `Valid`, `Fresh`, `DepthFirst`) is at the head of `Verif.ReEnterLemmas`: a history is a list of deliveries (point, value), delivery `t` makes point
`t + 1`, and `path h p` are the values delivered on the way to `p`.
-/

namespace Pscm.Re

variable {V : Type}

/-! ## C128: operands of a builtin -/

/-- C128 (part): a builtin called from a fresh point receives exactly the values delivered on the way to that point, in order, whatever else happened to the other points of the same call.
Missing: points that are not fresh (`c128_stale_fails`). -/
theorem c128_fresh_partial {n : Nat} {h : List (Nat × V)} {p : Nat} {v : V} (w : Valid n (h ++ [(p, v)])) (hn : (path h p).length + 1 = n) (fr : Fresh h p) :
    (deliver (delivers (start n) h) p v).1 = .call (path h p ++ [v]) := by
  have wh := valid_prefix w
  have i := inv_delivers h wh
  have el : (h ++ [(p, v)])[h.length]? = some (p, v) := by simp
  have hp : p ≤ h.length := (w _ _ _ el).1
  have i' := inv_deliver (v := v) i wh.back hp (by omega)
  have ed := deliver_eq (v := v) i wh.back hp (by omega)
  have fr' : Fresh (h ++ [(p, v)]) (h.length + 1) := by
    intro t ht q v1 e hq u v2 e'
    have hu : u < (h ++ [(p, v)]).length := (List.getElem?_eq_some_iff.1 e').1
    simp at hu
    rw [way_succ el hp] at ht
    rcases List.mem_append.1 ht with ht | ht
    · rw [way_append _ _ _ hp] at ht
      have htl := way_lt wh.back ht
      rw [List.getElem?_append_left (by omega)] at e
      by_cases hul : u < h.length
      · rw [List.getElem?_append_left hul] at e'
        exact fr t ht q v1 e hq u v2 e'
      · have : u = h.length := by omega
        subst this
        rw [el] at e'; cases e'
        have := wh.back _ _ _ e
        omega
    · rw [List.mem_singleton] at ht; omega
  obtain ⟨nd, f, e1, e2, _⟩ := follow_path i' w.back (p := h.length + 1) (by simp) (by omega) fr' (heap' (delivers (start n) h) p v).length
    (by have := i'.hl; rw [ed] at this; simp at this; omega)
  have hnd : nd.next = none := by
    obtain ⟨nx, k1, k2, k3⟩ := i'.node h.length p v el
    simp only [Nat.add_sub_cancel] at e1
    rw [k1] at e1
    cases e1
    cases nx with
    | none => rfl
    | some u =>
      obtain ⟨⟨v', e3⟩, _⟩ := k2 u rfl
      have : u < (h ++ [(p, v)]).length := (List.getElem?_eq_some_iff.1 e3).1
      have := w.back _ _ _ e3
      simp at *; omega
  rw [ed] at e2 ⊢
  simp only at e2 ⊢
  rw [if_pos hn, e2, hnd, path_succ el hp, path_append _ _ _ hp]
  cases f <;> simp [follow]

/-- Three operands; the second and the third are delivered twice, the older ones being given up. -/
example : Valid 3 [(0, 1), (1, 2), (2, 3), (2, 4), (1, 5), (5, 6)] ∧ Fresh [(0, 1), (1, 2), (2, 3), (2, 4), (1, 5)] 5 := by
  have hw : Valid 3 [(0, 1), (1, 2), (2, 3), (2, 4), (1, 5), (5, 6)] := by
    intro t q v e
    match t, e with
    | 0, e | 1, e | 2, e | 3, e | 4, e | 5, e =>
      simp only [List.getElem?_cons_zero, List.getElem?_cons_succ, Option.some.injEq, Prod.mk.injEq] at e
      obtain ⟨rfl, rfl⟩ := e
      simp [path]
    | t + 6, e => simp at e
  refine ⟨hw, ?_⟩
  intro t ht q v e hq u v' e'
  have hu : u < 5 := (List.getElem?_eq_some_iff.1 e').1
  simp [way] at ht
  rcases ht with rfl | rfl <;> simp at e
  · exact absurd e.1.symm hq
  · omega

/-- C128: with at most two operands every history is right. -/
theorem c128_two {n : Nat} {h : List (Nat × V)} {p : Nat} {v : V} (w : Valid n (h ++ [(p, v)])) (hn : (path h p).length + 1 = n) (h2 : n ≤ 2) :
    (deliver (delivers (start n) h) p v).1 = .call (path h p ++ [v]) := by
  apply c128_fresh_partial w hn
  have wh := valid_prefix w
  intro t ht q v1 e hq u v2 e'
  exfalso
  have el : (h ++ [(p, v)])[h.length]? = some (p, v) := by simp
  have hp : p ≤ h.length := (w _ _ _ el).1
  cases p with
  | zero => rw [way_zero] at ht; cases ht
  | succ k =>
    obtain ⟨⟨q', v'⟩, ek⟩ : ∃ x, h[k]? = some x := ⟨_, List.getElem?_eq_getElem (by omega)⟩
    have hk := wh.back _ _ _ ek
    rw [path_succ ek hk] at hn
    have hl : (path h q').length = 0 := by simp at hn; omega
    have hq0 : q' = 0 := by
      cases q' with
      | zero => rfl
      | succ j =>
        obtain ⟨⟨q2, v2⟩, ej⟩ : ∃ x, h[j]? = some x := ⟨_, List.getElem?_eq_getElem (by omega)⟩
        rw [path_succ ej (wh.back _ _ _ ej)] at hl
        simp at hl
    subst hq0
    rw [way_succ ek hk, way_zero] at ht
    simp at ht
    subst ht
    rw [ek] at e; cases e; exact hq rfl

example : Valid 2 [(0, 1), (1, 2), (0, 3), (3, 4), (1, 5)] ∧ (path [(0, 1), (1, 2), (0, 3), (3, 4)] 1).length + 1 = 2 := by
  refine ⟨?_, by simp [path]⟩
  intro t q v e
  match t, e with
  | 0, e | 1, e | 2, e | 3, e | 4, e =>
    simp only [List.getElem?_cons_zero, List.getElem?_cons_succ, Option.some.injEq, Prod.mk.injEq] at e
    obtain ⟨rfl, rfl⟩ := e
    simp [path]
  | t + 5, e => simp at e

/-- C128: depth-first search is right: if every continuation called was captured on the way to the point reached last (as backtracking does), every call receives the values of its own way. -/
theorem c128_backtracking {n : Nat} {h : List (Nat × V)} {p : Nat} {v : V} (w : Valid n (h ++ [(p, v)])) (hn : (path h p).length + 1 = n)
    (d : DepthFirst (h ++ [(p, v)])) : (deliver (delivers (start n) h) p v).1 = .call (path h p ++ [v]) := by
  apply c128_fresh_partial w hn
  have wh := valid_prefix w
  have el : (h ++ [(p, v)])[h.length]? = some (p, v) := by simp
  have hp : p ≤ h.length := (w _ _ _ el).1
  have dh : DepthFirst h := by
    intro t q v' e
    have ht : t + 1 < h.length := (List.getElem?_eq_some_iff.1 e).1
    have := d t q v' (by rw [List.getElem?_append_left ht]; exact e)
    rwa [way_append _ _ _ (by omega)] at this
  apply depthFirst_fresh wh.back dh
  cases hl : h.length with
  | zero => left; omega
  | succ k =>
    have := d k p v (by rw [← hl]; exact el)
    rwa [way_append _ _ _ (by omega)] at this

example : DepthFirst [(0, 1), (1, 2), (2, 3), (2, 4), (1, 5), (5, 6), (0, 7), (7, 8), (8, 9)] := by
  intro t q v e
  match t, e with
  | 0, e | 1, e | 2, e | 3, e | 4, e | 5, e | 6, e | 7, e =>
    simp only [List.getElem?_cons_zero, List.getElem?_cons_succ, Option.some.injEq, Prod.mk.injEq] at e
    obtain ⟨rfl, rfl⟩ := e
    simp [way]
  | t + 8, e => simp at e

theorem way_head {h : List (Nat × V)} (w : Back h) {p t : Nat} (hp : p ≤ h.length) (ht : t ∈ way h p) :
    ∃ t0 v, first h p = some t0 ∧ t0 ∈ way h p ∧ h[t0]? = some (0, v) ∧ t0 ≤ t := by
  induction p using Nat.strongRecOn generalizing t with
  | ind p ih =>
    cases p with
    | zero => rw [way_zero] at ht; cases ht
    | succ k =>
      obtain ⟨⟨q, v⟩, e⟩ : ∃ x, h[k]? = some x := ⟨_, List.getElem?_eq_getElem (by omega)⟩
      have hq := w k q v e
      cases q with
      | zero =>
        rw [way_succ e hq, way_zero] at ht ⊢
        simp at ht
        subst ht
        exact ⟨t, v, first_succ_root e, by simp, e, Nat.le_refl _⟩
      | succ j =>
        rw [first_succ w e (by omega)]
        rw [way_succ e hq] at ht ⊢
        rcases List.mem_append.1 ht with ht | ht
        · obtain ⟨t0, v0, a1, a2, a3, a4⟩ := ih (j + 1) (by omega) (by omega) ht
          exact ⟨t0, v0, a1, List.mem_append_left _ a2, a3, a4⟩
        · rw [List.mem_singleton] at ht
          subst ht
          have hj : j ∈ way h (j + 1) := by
            obtain ⟨⟨q2, v2⟩, ej⟩ : ∃ x, h[j]? = some x := ⟨_, List.getElem?_eq_getElem (by omega)⟩
            rw [way_succ ej (w _ _ _ ej)]; simp
          obtain ⟨t0, v0, a1, a2, a3, a4⟩ := ih (j + 1) (by omega) (by omega) hj
          exact ⟨t0, v0, a1, List.mem_append_left _ a2, a3, by omega⟩

/-- C128 is FALSE for points that are not fresh: the value passed to the continuation is ignored: the builtin gets arguments that do not depend on it. -/
theorem c128_stale_fails {n : Nat} {h : List (Nat × V)} {p : Nat} {v v' : V} (w : Valid n (h ++ [(p, v)])) (hn : (path h p).length + 1 = n) (stale : ¬ Fresh h p) :
    ∃ args, (deliver (delivers (start n) h) p v).1 = .call args ∧ (deliver (delivers (start n) h) p v').1 = .call args := by
  have wh := valid_prefix w
  have i := inv_delivers h wh
  have el : (h ++ [(p, v)])[h.length]? = some (p, v) := by simp
  have hp : p ≤ h.length := (w _ _ _ el).1
  have i' := inv_deliver (v := v) i wh.back hp (by omega)
  rw [deliver_eq (v := v) i wh.back hp (by omega)] at i' ⊢
  rw [deliver_eq (v := v') i wh.back hp (by omega)]
  simp only [if_pos hn]
  refine ⟨_, rfl, ?_⟩
  obtain ⟨st, hst, q, v1, e, hq, u, v2, e', hu⟩ : ∃ st ∈ way h p, ∃ q v1, h[st]? = some (q, v1) ∧ q ≠ 0 ∧ ∃ u v2, h[u]? = some (q, v2) ∧ st < u := by
    refine Classical.byContradiction fun hcon => stale ?_
    intro t ht q v1 e hq u v2 e'
    refine Nat.le_of_not_lt fun hlt => hcon ⟨t, ht, q, v1, e, hq, u, v2, e', hlt⟩
  have hstl := way_lt wh.back hst
  have hul : u < h.length := (List.getElem?_eq_some_iff.1 e').1
  cases p with
  | zero => rw [way_zero] at hst; cases hst
  | succ k =>
    have ef : ∀ x, first (h ++ [(k + 1, x)]) (h.length + 1) = first h (k + 1) := by
      intro x
      have ex : (h ++ [(k + 1, x)])[h.length]? = some (k + 1, x) := by simp
      rw [first_succ (back_snoc wh.back hp) ex (by simp; omega), first, first, way_append _ _ _ hp]
    obtain ⟨t0, v0, a1, a2, a3, a4⟩ := way_head wh.back hp hst
    simp only [ef, a1]
    have hlen : (heap' (delivers (start n) h) (k + 1) v).length = (heap' (delivers (start n) h) (k + 1) v').length := by simp [heap', setNext_length]
    rw [hlen]
    have hwn : way (h ++ [(k + 1, v)]) (h.length + 1) = way h (k + 1) ++ [h.length] := by rw [way_succ el hp, way_append _ _ _ hp]
    have sb : SameBut h.length (heap' (delivers (start n) h) (k + 1) v) (heap' (delivers (start n) h) (k + 1) v') := by
      intro t
      simp only [heap', setNext_get]
      by_cases htl : t < h.length
      · rw [List.getElem?_append_left (by rw [i.hl]; exact htl), List.getElem?_append_left (by rw [i.hl]; exact htl)]
        exact ⟨rfl, fun _ => rfl⟩
      · by_cases hte : t = h.length
        · subst hte
          rw [if_neg (by omega), if_neg (by omega)]
          rw [← i.hl]
          simp
        · rw [List.getElem?_eq_none (by simp [i.hl]; omega), List.getElem?_eq_none (by simp [i.hl]; omega)]
          exact ⟨rfl, fun _ => rfl⟩
    congr 1
    symm
    refine follow_stale (h := h ++ [(k + 1, v)]) w.back sb ?_ (by rw [hwn]; simp) (st := st) (q := q) (u := u) (v := v1) (v' := v2)
      (by rw [hwn]; exact List.mem_append_left _ hst) (by rw [List.getElem?_append_left (by omega)]; exact e)
      (by rw [List.getElem?_append_left (by omega)]; exact e') hu _ t0 (by rw [hwn]; exact List.mem_append_left _ a2) ?_
    · intro t nd u en hnx
      have htl : t < (heap' (delivers (start n) h) (k + 1) v).length := (List.getElem?_eq_some_iff.1 en).1
      have hl : (heap' (delivers (start n) h) (k + 1) v).length = (h ++ [(k + 1, v)]).length := i'.hl
      obtain ⟨⟨q', v''⟩, e3⟩ : ∃ x, (h ++ [(k + 1, v)])[t]? = some x := ⟨_, List.getElem?_eq_getElem (by omega)⟩
      obtain ⟨nx, k1, k2, _⟩ := i'.node t q' v'' e3
      rw [en] at k1
      cases k1
      obtain ⟨b1, b2⟩ := k2 u hnx
      exact ⟨by omega, b1, b2⟩
    · rcases Nat.lt_or_eq_of_le a4 with h4 | h4
      · exact h4
      · subst h4; rw [e] at a3; cases a3; exact absurd rfl hq

/-- The hypotheses are met, and the call that is made does not even have the right number of arguments: (f a b c) with the second operand re-entered while the third is pending, then the older
continuation of the third operand called: `f` gets two arguments. -/
theorem c128_counterexample : ∃ h : List (Nat × Nat), Valid 3 (h ++ [(2, 6)]) ∧ (path h 2).length + 1 = 3 ∧ ¬ Fresh h 2 ∧
    path h 2 ++ [6] = [1, 2, 6] ∧ (deliver (delivers (start 3) h) 2 6).1 = .call [1, 5] := by
  refine ⟨[(0, 1), (1, 2), (2, 3), (1, 5)], ?_, by simp [path], ?_, by simp [path], by rfl⟩
  · intro t q v e
    match t, e with
    | 0, e | 1, e | 2, e | 3, e | 4, e =>
      simp only [List.cons_append, List.nil_append, List.getElem?_cons_zero, List.getElem?_cons_succ, Option.some.injEq, Prod.mk.injEq] at e
      obtain ⟨rfl, rfl⟩ := e
      simp [path]
    | t + 5, e => simp at e
  · intro hf
    have := hf 1 (by simp [way]) 1 2 rfl (by decide) 3 5 rfl
    omega

/-! ## C129: operands of a closure -/

theorem cpoints_step (s : CSt V) (p : Nat) (v : V) : ∃ l, (cdeliver s p v).2.points = s.points ++ l := by
  unfold cdeliver
  split
  · exact ⟨[], by simp⟩
  · split
    · split <;> exact ⟨_, rfl⟩
    · exact ⟨[], by simp⟩

theorem csteps_append (s : CSt V) (h h' : List (CEv V)) : csteps s (h ++ h') = csteps (csteps s h) h' := by
  induction h generalizing s with
  | nil => rfl
  | cons e h ih => simp only [List.cons_append, csteps]; exact ih _

/-- The path to a point on the way to `k` is the beginning of the path to `k`. -/
theorem path_prefix {h : List (Nat × V)} (w : Back h) {k r : Nat} (hk : k ≤ h.length) (hr : r ∈ way h k) : ∃ l, path h k = path h (r + 1) ++ l := by
  induction k using Nat.strongRecOn with
  | ind k ih =>
    cases k with
    | zero => rw [way_zero] at hr; cases hr
    | succ t =>
      obtain ⟨⟨q, v⟩, e⟩ : ∃ x, h[t]? = some x := ⟨_, List.getElem?_eq_getElem (by omega)⟩
      have hq := w t q v e
      by_cases hrt : r = t
      · subst hrt; exact ⟨[], by simp⟩
      · rw [way_succ e hq] at hr
        rcases List.mem_append.1 hr with hr | hr
        · obtain ⟨l, el⟩ := ih q (by omega) (by omega) hr
          exact ⟨l ++ [v], by rw [path_succ e hq, el, List.append_assoc]⟩
        · rw [List.mem_singleton] at hr; omega

/-- What depth-first histories keep. -/
structure CInv (n : Nat) (h : List (Nat × V)) (s : CSt V) : Prop where
  el : s.env.length = n
  pl : s.points.length = h.length + 1
  pt : ∀ p, p ≤ h.length → s.points[p]? = some (path h p).length
  env : ∀ (j : Nat) (v : V), (path h h.length)[j]? = some v → s.env[j]? = some (some v)

theorem cinv_deliver {n : Nat} {h : List (Nat × V)} {s : CSt V} (i : CInv n h s) (w : Back h) {p : Nat} {v : V} (hp : p ≤ h.length) (hd : (path h p).length < n)
    (on : p = 0 ∨ p - 1 ∈ way h h.length) :
    CInv n (h ++ [(p, v)]) (cdeliver s p v).2 ∧
    ((path h p).length + 1 = n → (cdeliver s p v).1 = .body ((path h p ++ [v]).map some)) := by
  have el : (h ++ [(p, v)])[h.length]? = some (p, v) := by simp
  have hpt := i.pt p hp
  have hpre : ∀ (j : Nat) (x : V), (path h p)[j]? = some x → s.env[j]? = some (some x) := by
    intro j x e
    rcases on with on | on
    · subst on; rw [path_zero] at e; simp at e
    · cases p with
      | zero => rw [path_zero] at e; simp at e
      | succ k =>
        obtain ⟨l, el⟩ := path_prefix w (Nat.le_refl _) on
        simp only [Nat.add_sub_cancel] at el
        apply i.env
        have hj : j < (path h (k + 1)).length := (List.getElem?_eq_some_iff.1 e).1
        rw [el, List.getElem?_append_left hj]; exact e
  have henv : ∀ (j : Nat) (x : V), (path h p ++ [v])[j]? = some x → (s.env.set (path h p).length (some v))[j]? = some (some x) := by
    intro j x e
    rw [List.getElem?_set]
    by_cases hj : (path h p).length = j
    · subst hj
      simp at e
      subst e
      rw [if_pos rfl, if_pos (by rw [i.el]; exact hd)]
    · rw [if_neg hj]
      have hjl : j < (path h p ++ [v]).length := (List.getElem?_eq_some_iff.1 e).1
      simp at hjl
      rw [List.getElem?_append_left (by omega)] at e
      exact hpre j x e
  have hs : (cdeliver s p v).2 = ⟨s.env.set (path h p).length (some v), s.points ++ [(path h p).length + 1]⟩ := by
    unfold cdeliver
    simp only [hpt]
    rw [if_pos (by rw [i.el]; exact hd)]
    split <;> rfl
  constructor
  · rw [hs]
    refine ⟨by simpa using i.el, by simp [i.pl], ?_, ?_⟩
    · intro p' hp'
      by_cases h1 : p' ≤ h.length
      · rw [List.getElem?_append_left (by rw [i.pl]; omega), path_append _ _ _ h1]
        exact i.pt p' h1
      · have : p' = h.length + 1 := by simp at hp'; omega
        subst this
        rw [List.getElem?_append_right (by rw [i.pl]; omega), i.pl, Nat.sub_self, path_succ el hp, path_append _ _ _ hp]
        simp
    · intro j x e
      have : (h ++ [(p, v)]).length = h.length + 1 := by simp
      rw [this, path_succ el hp, path_append _ _ _ hp] at e
      exact henv j x e
  · intro hn
    unfold cdeliver
    simp only [hpt]
    rw [if_pos (by rw [i.el]; exact hd), if_pos (by rw [i.el]; exact hn)]
    show COut.body _ = COut.body _
    congr 1
    apply List.ext_getElem?
    intro j
    by_cases hj : j < n
    · have hjl : j < (path h p ++ [v]).length := by simp; omega
      have e1 : (path h p ++ [v])[j]? = some (path h p ++ [v])[j] := List.getElem?_eq_getElem hjl
      rw [henv j _ e1, List.getElem?_map, e1]; rfl
    · rw [List.getElem?_eq_none (by simp [i.el]; omega), List.getElem?_eq_none (by simp; omega)]

theorem depthFirst_on {h : List (Nat × V)} {p : Nat} {v : V} (d : DepthFirst (h ++ [(p, v)])) (hp : p ≤ h.length) : p = 0 ∨ p - 1 ∈ way h h.length := by
  have el : (h ++ [(p, v)])[h.length]? = some (p, v) := by simp
  cases hl : h.length with
  | zero => left; omega
  | succ k =>
    have := d k p v (by rw [← hl]; exact el)
    rwa [way_append _ _ _ (by omega)] at this

theorem depthFirst_prefix {h h' : List (Nat × V)} (d : DepthFirst (h ++ h')) : DepthFirst h := by
  intro t q v' e
  have ht : t + 1 < h.length := (List.getElem?_eq_some_iff.1 e).1
  have := d t q v' (by rw [List.getElem?_append_left ht]; exact e)
  rwa [way_append _ _ _ (by omega)] at this

/-- The deliveries as events. -/
def evs (h : List (Nat × V)) : List (CEv V) := h.map fun x => .deliver x.1 x.2

theorem cinv_delivers {n : Nat} (h : List (Nat × V)) (w : Valid n h) (d : DepthFirst h) : CInv n h (csteps (cstart n) (evs h)) := by
  have key : ∀ k, k ≤ h.length → CInv n (h.take k) (csteps (cstart n) (evs (h.take k))) := by
    intro k
    induction k with
    | zero =>
      intro _
      refine ⟨by simp [evs, csteps, cstart], by simp [evs, csteps, cstart], ?_, ?_⟩
      · intro p hp
        have : p = 0 := by simpa using hp
        subst this
        simp [evs, csteps, cstart, path_zero]
      · intro j v e; simp [path_zero] at e
    | succ k ih =>
      intro hk
      have e : h.take (k + 1) = h.take k ++ [h[k]] := by rw [List.take_succ_eq_append_getElem (by omega)]
      have hw : Valid n (h.take k) := by apply valid_prefix (h' := h.drop k); rw [List.take_append_drop]; exact w
      have hd : DepthFirst (h.take k ++ [h[k]]) := by
        rw [← e]; apply depthFirst_prefix (h' := h.drop (k + 1)); rw [List.take_append_drop]; exact d
      obtain ⟨⟨p, v⟩, ep⟩ : ∃ x, h[k] = x := ⟨_, rfl⟩
      have hv := w k p v (by rw [List.getElem?_eq_getElem (by omega), ep])
      have hl : (h.take k).length = k := by simp; omega
      have hpath : path (h.take k) p = path h p := by
        have := path_append (h.take k) (h.drop k) p (by omega)
        rw [List.take_append_drop] at this
        exact this.symm
      rw [ep] at hd
      rw [e, ep, evs, List.map_append, ← evs, csteps_append]
      exact (cinv_deliver (ih (by omega)) hw.back (by omega) (by rw [hpath]; exact hv.2) (depthFirst_on hd (by omega))).1
  have := key h.length (Nat.le_refl _)
  rwa [List.take_length] at this

/-- C129 (part): when the continuations called were captured on the way to the point reached last and no parameter was assigned, the body of a closure starts with every parameter bound to the
value delivered for it.  Missing: other histories (`c129_order_counterexample`), assignments (`c129_assign_counterexample`), and that each activation keeps its variables (`c129_shared_fails`). -/
theorem c129_bindings_partial {n : Nat} {h : List (Nat × V)} {p : Nat} {v : V} (w : Valid n (h ++ [(p, v)])) (hn : (path h p).length + 1 = n)
    (d : DepthFirst (h ++ [(p, v)])) :
    (cdeliver (csteps (cstart n) (evs h)) p v).1 = .body ((path h p ++ [v]).map some) := by
  have el : (h ++ [(p, v)])[h.length]? = some (p, v) := by simp
  have hp : p ≤ h.length := (w _ _ _ el).1
  exact (cinv_deliver (cinv_delivers h (valid_prefix w) (depthFirst_prefix d)) (valid_prefix w).back hp (by omega) (depthFirst_on d hp)).2 hn

example : Valid 2 [(0, 1), (1, 2), (1, 3), (0, 4), (4, 5)] ∧ DepthFirst [(0, 1), (1, 2), (1, 3), (0, 4), (4, 5)] := by
  refine ⟨?_, ?_⟩
  · intro t q v e
    match t, e with
    | 0, e | 1, e | 2, e | 3, e | 4, e =>
      simp only [List.getElem?_cons_zero, List.getElem?_cons_succ, Option.some.injEq, Prod.mk.injEq] at e
      obtain ⟨rfl, rfl⟩ := e
      simp [path]
    | t + 5, e => simp at e
  · intro t q v e
    match t, e with
    | 0, e | 1, e | 2, e | 3, e =>
      simp only [List.getElem?_cons_zero, List.getElem?_cons_succ, Option.some.injEq, Prod.mk.injEq] at e
      obtain ⟨rfl, rfl⟩ := e
      simp [way]
    | t + 4, e => simp at e

/-- C129 is FALSE in that activations do not have variables of their own: whenever the body was started from a point and is started again from the same point with another value, the
variables of the *first* activation (its environment, which closures made in it refer to) have changed. -/
theorem c129_shared_fails {s : CSt V} {p : Nat} {v v' : V} {vars vars' : List (Option V)} (h1 : (cdeliver s p v).1 = .body vars)
    (h2 : (cdeliver (cdeliver s p v).2 p v').1 = .body vars') (ne : v ≠ v') :
    (cdeliver s p v).2.env = vars ∧ (cdeliver (cdeliver s p v).2 p v').2.env = vars' ∧ vars ≠ vars' := by
  unfold cdeliver at h1
  cases hp : s.points[p]? with
  | none => simp [hp] at h1
  | some i =>
    simp only [hp] at h1
    split at h1
    · rename_i hi
      split at h1
      · rename_i hl
        cases h1
        have e : cdeliver s p v = (.body (s.env.set i (some v)), ⟨s.env.set i (some v), s.points ++ [i + 1]⟩) := by
          unfold cdeliver; simp [hp, hi, hl]
        rw [e] at h2 ⊢
        have hp' : (s.points ++ [i + 1])[p]? = some i := by
          rw [List.getElem?_append_left (List.getElem?_eq_some_iff.1 hp).1]; exact hp
        have e' : cdeliver (⟨s.env.set i (some v), s.points ++ [i + 1]⟩ : CSt V) p v' =
            (.body ((s.env.set i (some v)).set i (some v')), ⟨(s.env.set i (some v)).set i (some v'), s.points ++ [i + 1] ++ [i + 1]⟩) := by
          unfold cdeliver
          simp only [hp', List.length_set]
          rw [if_pos hi, if_pos hl]
        rw [e'] at h2 ⊢
        cases h2
        refine ⟨rfl, rfl, ?_⟩
        intro hc
        have : (s.env.set i (some v))[i]? = ((s.env.set i (some v)).set i (some v'))[i]? := by rw [← hc]
        simp [hi] at this
        exact ne this
      · cases h1
    · cases h1

/-- ((lambda (x) (lambda () x)) (call/cc ...)), the continuation called again with 2: the closure made for 1 now returns 2. -/
example : (cdeliver (cstart 1) 0 1).1 = .body [some 1] ∧ (cdeliver (cdeliver (cstart 1) 0 1).2 0 2).1 = .body [some 2] := ⟨rfl, rfl⟩

/-- C129 is FALSE for other orders: after the first operand was re-entered, the older continuation of the second operand starts the body with the newer value of the first. -/
theorem c129_order_counterexample : ∃ h : List (Nat × Nat), Valid 2 (h ++ [(1, 4)]) ∧ path h 1 ++ [4] = [1, 4] ∧
    (cdeliver (csteps (cstart 2) (evs h)) 1 4).1 = .body [some 3, some 4] := by
  refine ⟨[(0, 1), (1, 2), (0, 3)], ?_, by simp [path], rfl⟩
  intro t q v e
  match t, e with
  | 0, e | 1, e | 2, e | 3, e =>
    simp only [List.cons_append, List.nil_append, List.getElem?_cons_zero, List.getElem?_cons_succ, Option.some.injEq, Prod.mk.injEq] at e
    obtain ⟨rfl, rfl⟩ := e
    simp [path]
  | t + 4, e => simp at e

/-- C129 is FALSE when the body assigns a parameter: the operand value already computed is lost for later returns into the other operands. -/
theorem c129_assign_counterexample : (cdeliver (csteps (cstart 2) [.deliver 0 1, .deliver 1 2, .assign 0 9]) 1 4).1 = .body [some 9, some (4 : Nat)] := rfl

/-! ## C130: map -/

theorem mdeliver_none (s : MSt V) (p : Nat) (r : V) (h : s.ptrs = none) : (mdeliver s p r).2 = s ∧ ((mdeliver s p r).1 = .ub ∨ (mdeliver s p r).1 = .invalid) := by
  unfold mdeliver
  split
  · exact ⟨rfl, .inr rfl⟩
  · rw [h]; exact ⟨rfl, .inl rfl⟩

theorem mdelivers_none (s : MSt V) (h : List (Nat × V)) (hn : s.ptrs = none) : mdelivers s h = s := by
  induction h with
  | nil => rfl
  | cons x h ih => obtain ⟨p, r⟩ := x; rw [mdelivers, (mdeliver_none s p r hn).1]; exact ih

theorem mhead_done {s s' : MSt V} {ptrs : List (List V)} {f : MFrame} {l : List V} (h : mhead s ptrs f = (.done l, s')) : s'.ptrs = none ∧ s'.points = s.points := by
  unfold mhead at h
  split at h
  · cases h
  · cases h; exact ⟨rfl, rfl⟩

/-- C130 is FALSE: after `map` has returned, every call of a continuation captured inside its procedure reads memory that was freed, in every history. -/
theorem c130_after_fails {s : MSt V} {p : Nat} {r : V} {l : List V} (hd : (mdeliver s p r).1 = .done l) (h : List (Nat × V)) (p' : Nat) (r' : V)
    (hp' : p' < s.points.length) : (mdeliver (mdelivers (mdeliver s p r).2 h) p' r').1 = .ub := by
  have hn : (mdeliver s p r).2.ptrs = none ∧ (mdeliver s p r).2.points = s.points := by
    unfold mdeliver at hd ⊢
    cases hp : s.points[p]? with
    | none => simp [hp] at hd
    | some f =>
      cases hq : s.ptrs with
      | none => simp [hp, hq] at hd
      | some ptrs =>
        simp only [hp, hq] at hd ⊢
        generalize hg : mhead _ _ _ = x at hd ⊢
        obtain ⟨o, s'⟩ := x
        simp only at hd
        subst hd
        have hm := mhead_done hg
        exact hm
  rw [mdelivers_none _ _ hn.1]
  generalize (mdeliver s p r).2 = s2 at hn
  unfold mdeliver
  rw [hn.2]
  obtain ⟨f, ef⟩ : ∃ f, s.points[p']? = some f := ⟨_, List.getElem?_eq_getElem hp'⟩
  simp only [ef, hn.1]

/-- (map f '(1 2)) runs to its end; then the continuation captured while `f` was applied to 1 is called. -/
example : (mdeliver (mdelivers (mstart [[1, 2]]).2 [(0, 10)]) 1 20).1 = .done [10, 20] ∧
    (mdeliver (mdelivers (mstart [[1, 2]]).2 [(0, 10), (1, 20)]) 0 30).1 = .ub := ⟨rfl, rfl⟩

theorem takeRow_spec {ls : List (List V)} {row : List V} {rest : List (List V)} (h : takeRow ls = some (row, rest)) :
    row.map some = ls.map (·[0]?) ∧ rest = ls.map (·.tail) := by
  induction ls generalizing row rest with
  | nil => simp only [takeRow] at h; cases h; exact ⟨rfl, rfl⟩
  | cons l ls ih =>
    cases l with
    | nil => simp [takeRow] at h
    | cons x xs =>
      simp only [takeRow] at h
      split at h
      · cases h
      · rename_i e
        cases h
        obtain ⟨h1, h2⟩ := ih e
        simp [h1, h2]

theorem tail_drop (ls : List (List V)) (k : Nat) : (ls.map (·.drop k)).map (·.tail) = ls.map (·.drop (k + 1)) := by
  simp [List.tail_drop]

/-- What every history keeps while `map` is running. -/
structure MInv (ls : List (List V)) (k : Nat) (s : MSt V) : Prop where
  pl : s.points.length = k
  ptrs : s.ptrs = some (ls.map (·.drop k))

theorem minv_deliver {ls : List (List V)} {k : Nat} {s : MSt V} (i : MInv ls k s) {p : Nat} (hp : p < k) (r : V) :
    ((∃ args, (mdeliver s p r).1 = .app args ∧ args.map some = ls.map (·[k]?)) ∧ MInv ls (k + 1) (mdeliver s p r).2) ∨
    ((∃ l, (mdeliver s p r).1 = .done l) ∧ (mdeliver s p r).2.ptrs = none ∧ ∃ l ∈ ls, l.length ≤ k) := by
  obtain ⟨f, ef⟩ : ∃ f, s.points[p]? = some f := ⟨_, List.getElem?_eq_getElem (by rw [i.pl]; exact hp)⟩
  unfold mdeliver
  simp only [ef, i.ptrs]
  unfold mhead
  cases ht : takeRow (ls.map (·.drop k)) with
  | none =>
    right
    refine ⟨⟨_, rfl⟩, rfl, ?_⟩
    have : ∀ (xs : List (List V)), takeRow xs = none → ∃ l ∈ xs, l = [] := by
      intro xs
      induction xs with
      | nil => simp [takeRow]
      | cons x xs ih =>
        cases x with
        | nil => intro _; exact ⟨[], by simp, rfl⟩
        | cons y ys =>
          intro h
          simp only [takeRow] at h
          split at h
          · rename_i e
            obtain ⟨l, hl, e2⟩ := ih e
            exact ⟨l, by simp [hl], e2⟩
          · cases h
    obtain ⟨l, hl, e⟩ := this _ ht
    obtain ⟨l', hl', rfl⟩ := List.mem_map.1 hl
    exact ⟨l', hl', by simpa using e⟩
  | some x =>
    obtain ⟨row, rest⟩ := x
    obtain ⟨h1, h2⟩ := takeRow_spec ht
    left
    refine ⟨⟨row, rfl, ?_⟩, by simp [i.pl], ?_⟩
    · rw [h1]; simp
    · simp only [h2]; rw [tail_drop]

/-- C130, exactly, for every history of a `map` that has not returned: whichever of its applications returns, and however often, the next application is to the elements after those of the
*last* application made, not after those of the application that returned; so each element is passed to the procedure at most once, and the result of a re-entered `map` lacks elements. -/
theorem c130_next {ls : List (List V)} (h : List (Nat × V)) (back : ∀ (t p : Nat) (v : V), h[t]? = some (p, v) → p ≤ t)
    (hs : ∃ row, (mstart ls).1 = .app row) (run : (mdelivers (mstart ls).2 h).ptrs ≠ none) (p : Nat) (hp : p ≤ h.length) (r : V) :
    (∃ args, (mdeliver (mdelivers (mstart ls).2 h) p r).1 = .app args ∧ args.map some = ls.map (·[h.length + 1]?)) ∨
    ((∃ l, (mdeliver (mdelivers (mstart ls).2 h) p r).1 = .done l) ∧ ∃ l ∈ ls, l.length ≤ h.length + 1) := by
  have h0 : MInv ls 1 (mstart ls).2 := by
    obtain ⟨row, hs⟩ := hs
    unfold mstart mhead at hs ⊢
    cases ht : takeRow ls with
    | none => simp [ht] at hs
    | some x =>
      obtain ⟨row, rest⟩ := x
      refine ⟨by simp, ?_⟩
      simp [(takeRow_spec ht).2]
  have key : ∀ (h : List (Nat × V)) (k : Nat) (s : MSt V), MInv ls (k + 1) s → (∀ (t p : Nat) (v : V), h[t]? = some (p, v) → p ≤ k + t) →
      (mdelivers s h).ptrs ≠ none → MInv ls (k + h.length + 1) (mdelivers s h) := by
    intro h
    induction h with
    | nil => intro k s i _ _; exact i
    | cons x h ih =>
      intro k s i b hr
      obtain ⟨q, v⟩ := x
      rw [mdelivers] at hr ⊢
      have hq := b 0 q v rfl
      rcases minv_deliver i (p := q) (by omega) v with ⟨_, i'⟩ | ⟨_, hn, _⟩
      · have := ih (k + 1) _ i' (fun t p v e => by have := b (t + 1) p v (by simpa using e); omega) hr
        have e : k + 1 + h.length + 1 = k + (h.length + 1) + 1 := by omega
        rw [e] at this
        simpa using this
      · rw [mdelivers_none _ _ hn] at hr; exact absurd hn hr
  have i := key h 0 _ h0 (fun t p v e => by have := back t p v e; omega) run
  rw [Nat.zero_add] at i
  rcases minv_deliver i (p := p) (by omega) r with ⟨h1, _⟩ | ⟨h1, _, h2⟩
  · exact .inl h1
  · exact .inr ⟨h1, h2⟩

/-- Every application returns once, in order. -/
def inOrder : Nat → List V → List (Nat × V)
  | _, [] => []
  | i, v :: vs => (i, v) :: inOrder (i + 1) vs

/-- The heap holds the list `rs`. -/
def Holds (heap : List (Node V)) (rs : List V) : Prop :=
  ∀ t : Nat, heap[t]? = (rs[t]?).map fun r => ⟨r, if t + 1 < rs.length then some (t + 1) else none⟩

theorem follow_holds {heap : List (Node V)} {rs : List V} (w : Holds heap rs) (fuel t : Nat) (ht : t < rs.length) (hf : rs.length ≤ fuel + t) :
    follow heap fuel (some t) = rs.drop t := by
  induction fuel generalizing t with
  | zero => omega
  | succ fuel ih =>
    have e : rs[t]? = some rs[t] := List.getElem?_eq_getElem ht
    have ew := w t
    rw [e] at ew
    simp only [Option.map_some] at ew
    simp only [follow, ew]
    rw [List.drop_eq_getElem_cons ht]
    congr 1
    by_cases hl : t + 1 < rs.length
    · rw [if_pos hl]; exact ih (t + 1) hl (by omega)
    · rw [if_neg hl, List.drop_eq_nil_of_le (by omega)]
      cases fuel <;> rfl

theorem holds_length {heap : List (Node V)} {rs : List V} (w : Holds heap rs) : heap.length = rs.length := by
  have h1 := w rs.length
  rw [List.getElem?_eq_none (Nat.le_refl _)] at h1
  simp only [Option.map_none, List.getElem?_eq_none_iff] at h1
  rcases Nat.lt_or_eq_of_le h1 with h | h
  · have h2 := w heap.length
    rw [List.getElem?_eq_none (Nat.le_refl _), List.getElem?_eq_getElem h] at h2
    cases h2
  · exact h

/-- The locals of `eval_map` after `k` results. -/
def locals (k : Nat) : MFrame := match k with | 0 => ⟨none, .dummy⟩ | k + 1 => ⟨some 0, .node k⟩

theorem holds_push {heap : List (Node V)} {rs : List V} (w : Holds heap rs) (v : V) :
    Holds (match (locals rs.length).tail with | .dummy => heap ++ [⟨v, none⟩] | .node m => setNext (heap ++ [⟨v, none⟩]) m heap.length) (rs ++ [v]) := by
  have hl := holds_length w
  intro t
  have hv : ∀ t : Nat, (heap ++ [(⟨v, none⟩ : Node V)])[t]? = if t = rs.length then some ⟨v, none⟩ else heap[t]? := by
    intro t
    by_cases h : t < rs.length
    · rw [List.getElem?_append_left (by omega), if_neg (by omega)]
    · by_cases h2 : t = rs.length
      · subst h2; rw [if_pos rfl, ← hl]; simp
      · rw [if_neg h2, List.getElem?_eq_none (by simp; omega), List.getElem?_eq_none (by omega)]
  have hr : (rs ++ [v])[t]? = if t = rs.length then some v else rs[t]? := by
    by_cases h : t < rs.length
    · rw [List.getElem?_append_left (by omega), if_neg (by omega)]
    · by_cases h2 : t = rs.length
      · subst h2; simp
      · rw [if_neg h2, List.getElem?_eq_none (by simp; omega), List.getElem?_eq_none (by omega)]
  cases hk : rs.length with
  | zero =>
    simp only [locals]
    rw [hv, hr, w t]
    have : rs = [] := List.eq_nil_of_length_eq_zero hk
    subst this
    by_cases h : t = 0
    · subst h; simp
    · simp [h]
  | succ k =>
    simp only [locals]
    rw [setNext_get, hv, hr, w t, hl]
    by_cases h : t = rs.length
    · subst h
      rw [if_neg (by omega), if_pos rfl, if_pos rfl]
      simp
    · rw [if_neg h, if_neg h]
      by_cases h2 : t = k
      · subst h2
        rw [if_pos rfl]
        have e : rs[t]? = some rs[t] := List.getElem?_eq_getElem (by omega)
        rw [e]
        simp [hk]
      · rw [if_neg h2]
        by_cases h3 : t < rs.length
        · have e : rs[t]? = some rs[t] := List.getElem?_eq_getElem (by omega)
          rw [e]
          simp only [Option.map_some, List.length_append, List.length_singleton]
          rw [if_pos (by omega), if_pos (by omega)]
        · rw [List.getElem?_eq_none (by omega)]; rfl

/-- In-order histories. -/
structure OInv (ls : List (List V)) (rs : List V) (s : MSt V) : Prop where
  inv : MInv ls (rs.length + 1) s
  heap : Holds s.heap rs
  pt : s.points[rs.length]? = some (locals rs.length)

theorem oinv_deliver {ls : List (List V)} {rs : List V} {s : MSt V} (i : OInv ls rs s) (v : V) :
    ((∃ l ∈ ls, l.length ≤ rs.length + 1) → (mdeliver s rs.length v).1 = .done (rs ++ [v])) ∧
    ((∀ l ∈ ls, rs.length + 1 < l.length) → OInv ls (rs ++ [v]) (mdeliver s rs.length v).2) := by
  have hp := holds_push i.heap v
  have hm := minv_deliver i.inv (p := rs.length) (by omega) v
  have e : mdeliver s rs.length v = mhead { s with heap := match (locals rs.length).tail with | .dummy => s.heap ++ [⟨v, none⟩] | .node m => setNext (s.heap ++ [⟨v, none⟩]) m s.heap.length }
      (ls.map (·.drop (rs.length + 1))) ⟨some 0, .node s.heap.length⟩ := by
    unfold mdeliver
    simp only [i.pt, i.inv.ptrs]
    have hz := holds_length i.heap
    cases hk : rs.length with
    | zero => rw [hk] at hz; simp only [locals, hz]
    | succ k => simp only [locals]
  constructor
  · intro hl
    rcases hm with ⟨⟨args, h1, h2⟩, _⟩ | ⟨⟨l, h1⟩, _⟩
    · exfalso
      obtain ⟨l, hl, hle⟩ := hl
      have : (none : Option V) ∈ ls.map (·[rs.length + 1]?) := List.mem_map.2 ⟨l, hl, List.getElem?_eq_none hle⟩
      rw [← h2] at this
      simp at this
    · rw [e] at h1 ⊢
      unfold mhead at h1 ⊢
      split at h1
      · cases h1
      · dsimp only
        rw [follow_holds hp _ 0 (by simp) (by rw [holds_length hp]; omega)]
        rfl
  · intro hl
    rcases hm with ⟨⟨args, h1, h2⟩, h3⟩ | ⟨_, _, l, h1, h2⟩
    · refine ⟨by simpa using h3, ?_, ?_⟩
      · rw [e] at h1 ⊢
        unfold mhead at h1 ⊢
        split at h1
        · exact hp
        · cases h1
      · rw [e] at h1 ⊢
        unfold mhead at h1 ⊢
        split at h1
        · simp only [List.length_append, List.length_singleton]
          rw [List.getElem?_append_right (by rw [i.inv.pl]; omega), i.inv.pl, Nat.sub_self, holds_length i.heap]
          rfl
        · cases h1
    · have := hl l h1; omega

/-- C130 (part): when every application returns exactly once, `map` returns the list of the results, in order, one for each element of the shortest list.  Missing: applications that return again
(`c130_after_fails`, `c130_next`). -/
theorem c130_once_partial {ls : List (List V)} {rs : List V} {r : V} (h1 : ∀ l ∈ ls, rs.length < l.length) (h2 : ∃ l ∈ ls, l.length = rs.length + 1) :
    (mdeliver (mdelivers (mstart ls).2 (inOrder 0 rs)) rs.length r).1 = .done (rs ++ [r]) := by
  have h0 : OInv ls [] (mstart ls).2 := by
    unfold mstart mhead
    cases ht : takeRow ls with
    | none =>
      exfalso
      have : ∀ (xs : List (List V)), (∀ l ∈ xs, 0 < l.length) → takeRow xs ≠ none := by
        intro xs
        induction xs with
        | nil => simp [takeRow]
        | cons x xs ih =>
          intro hx
          cases x with
          | nil => simp at hx
          | cons y ys =>
            simp only [takeRow]
            split
            · rename_i e; exact absurd e (ih fun l hl => hx l (by simp [hl]))
            · simp
      exact this ls (fun l hl => by have := h1 l hl; omega) ht
    | some x =>
      obtain ⟨row, rest⟩ := x
      refine ⟨⟨by simp, by simp [(takeRow_spec ht).2]⟩, fun t => by simp, rfl⟩
  have key : ∀ (vs acc : List V) (s : MSt V), OInv ls acc s → acc.length + vs.length = rs.length →
      OInv ls (acc ++ vs) (mdelivers s (inOrder acc.length vs)) := by
    intro vs
    induction vs with
    | nil => intro acc s i _; simpa [inOrder, mdelivers] using i
    | cons v vs ih =>
      intro acc s i hl
      simp only [List.length_cons] at hl
      simp only [inOrder, mdelivers]
      have := ih (acc ++ [v]) _ ((oinv_deliver i v).2 fun l hm => by have := h1 l hm; omega) (by simp; omega)
      simpa using this
  have i := key rs [] _ h0 (by simp)
  simp only [List.nil_append, List.length_nil] at i
  obtain ⟨l, hl, e⟩ := h2
  exact (oinv_deliver i r).1 ⟨l, hl, by omega⟩

example : (∀ l ∈ [[1, 2, 3], [4, 5]], [7].length < l.length) ∧ (∃ l ∈ [[1, 2, 3], [4, 5]], l.length = [7].length + 1) := by simp

/-- (map f '(1 2 3)): while `f` is applied to 2, its first application returns again with 30: the next application is to 3, the element 2 is lost: the result is (30 40). -/
theorem c130_skip_counterexample :
    (mdeliver (mdelivers (mstart [[1, 2, 3]]).2 [(0, 10)]) 0 30).1 = .app [3] ∧
    (mdeliver (mdelivers (mstart [[1, 2, 3]]).2 [(0, 10), (0, 30)]) 2 40).1 = .done [30, (40 : Nat)] := ⟨rfl, rfl⟩

end Pscm.Re
