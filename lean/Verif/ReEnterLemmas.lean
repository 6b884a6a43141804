import Verif.ReEnter

/-!
# Histories of deliveries: specification and lemmas for C128
-/

namespace Pscm.Re

variable {V : Type}

/-! ## Specification

A history is a list of pairs (point, value); delivery number `t` makes point `t + 1`. -/

/-- The values delivered on the way to point `p`: the operand values a call made from there must receive. -/
def path (h : List (Nat × V)) : Nat → List V
  | 0 => []
  | t + 1 =>
    match h[t]? with
    | none => []
    | some (q, v) => if _hq : q ≤ t then path h q ++ [v] else [v]
termination_by p => p

/-- The numbers of these deliveries. -/
def way (h : List (Nat × V)) : Nat → List Nat
  | 0 => []
  | t + 1 =>
    match h[t]? with
    | none => []
    | some (q, _) => if _hq : q ≤ t then way h q ++ [t] else [t]
termination_by p => p

/-- Every delivery is made at a point that exists and that still has an operand to evaluate (`n` operands). -/
def Valid (n : Nat) (h : List (Nat × V)) : Prop :=
  ∀ (t q : Nat) (v : V), h[t]? = some (q, v) → q ≤ t ∧ (path h q).length < n

/-- The point `p` is fresh: every delivery on the way to `p` was the last one made at its point, except perhaps the delivery of the first operand. -/
def Fresh (h : List (Nat × V)) (p : Nat) : Prop :=
  ∀ t ∈ way h p, ∀ (q : Nat) (v : V), h[t]? = some (q, v) → q ≠ 0 → ∀ (u : Nat) (v' : V), h[u]? = some (q, v') → u ≤ t

/-- Depth first: every delivery is made at a point on the way to the one made last. -/
def DepthFirst (h : List (Nat × V)) : Prop :=
  ∀ (t q : Nat) (v : V), h[t + 1]? = some (q, v) → q = 0 ∨ q - 1 ∈ way h (t + 1)

/-! ## Lemmas -/

theorem path_succ {h : List (Nat × V)} {t q : Nat} {v : V} (e : h[t]? = some (q, v)) (hq : q ≤ t) : path h (t + 1) = path h q ++ [v] := by
  rw [path]; simp [e, hq]

theorem way_succ {h : List (Nat × V)} {t q : Nat} {v : V} (e : h[t]? = some (q, v)) (hq : q ≤ t) : way h (t + 1) = way h q ++ [t] := by
  rw [way]; simp [e, hq]

theorem path_zero (h : List (Nat × V)) : path h 0 = [] := by rw [path]

theorem way_zero (h : List (Nat × V)) : way h 0 = [] := by rw [way]

theorem path_append (h h' : List (Nat × V)) (p : Nat) (hp : p ≤ h.length) : path (h ++ h') p = path h p := by
  induction p using Nat.strongRecOn with
  | ind p ih =>
    cases p with
    | zero => rw [path_zero, path_zero]
    | succ t =>
      have e : (h ++ h')[t]? = h[t]? := List.getElem?_append_left (by omega)
      rw [path, path, e]
      split
      · rfl
      · rename_i q v _
        split
        · rw [ih q (by omega) (by omega)]
        · rfl

theorem way_append (h h' : List (Nat × V)) (p : Nat) (hp : p ≤ h.length) : way (h ++ h') p = way h p := by
  induction p using Nat.strongRecOn with
  | ind p ih =>
    cases p with
    | zero => rw [way_zero, way_zero]
    | succ t =>
      have e : (h ++ h')[t]? = h[t]? := List.getElem?_append_left (by omega)
      rw [way, way, e]
      split
      · rfl
      · rename_i q v _
        split
        · rw [ih q (by omega) (by omega)]
        · rfl

/-- Parents come before. -/
def Back (h : List (Nat × V)) : Prop := ∀ (t q : Nat) (v : V), h[t]? = some (q, v) → q ≤ t

theorem Valid.back {n : Nat} {h : List (Nat × V)} (w : Valid n h) : Back h := fun t q v e => (w t q v e).1

theorem way_lt {h : List (Nat × V)} (w : Back h) {p t : Nat} (ht : t ∈ way h p) : t < p := by
  induction p using Nat.strongRecOn with
  | ind p ih =>
    cases p with
    | zero => rw [way_zero] at ht; cases ht
    | succ k =>
      cases e : h[k]? with
      | none => rw [way] at ht; simp [e] at ht
      | some x =>
        obtain ⟨q, v⟩ := x
        have hq := w k q v e
        rw [way_succ e hq] at ht
        rcases List.mem_append.1 ht with ht | ht
        · have := ih q (by omega) ht; omega
        · rw [List.mem_singleton] at ht; omega

theorem path_length {h : List (Nat × V)} (w : Back h) (p : Nat) : (path h p).length ≤ p := by
  induction p using Nat.strongRecOn with
  | ind p ih =>
    cases p with
    | zero => rw [path_zero]; simp
    | succ k =>
      cases e : h[k]? with
      | none => rw [path]; simp [e]
      | some x =>
        obtain ⟨q, v⟩ := x
        have hq := w k q v e
        rw [path_succ e hq]
        have := ih q (by omega)
        simp; omega

theorem way_parent {h : List (Nat × V)} (w : Back h) {p b a : Nat} {v : V} (hb : b ∈ way h p) (e : h[b]? = some (a + 1, v)) (ha : a < h.length) :
    a ∈ way h p := by
  induction p using Nat.strongRecOn with
  | ind p ih =>
    cases p with
    | zero => rw [way_zero] at hb; cases hb
    | succ k =>
      cases ek : h[k]? with
      | none => rw [way] at hb; simp [ek] at hb
      | some x =>
        obtain ⟨q, v'⟩ := x
        have hq := w k q v' ek
        rw [way_succ ek hq] at hb ⊢
        rcases List.mem_append.1 hb with hb | hb
        · exact List.mem_append_left _ (ih q (by omega) hb)
        · rw [List.mem_singleton] at hb
          subst hb
          rw [e] at ek
          cases ek
          obtain ⟨⟨q', v''⟩, e'⟩ : ∃ x, h[a]? = some x := ⟨_, List.getElem?_eq_getElem ha⟩
          rw [way_succ e' (w _ _ _ e')]
          simp

theorem way_unique {h : List (Nat × V)} (w : Back h) {p b c q : Nat} {v v' : V} (hb : b ∈ way h p) (hc : c ∈ way h p)
    (e : h[b]? = some (q, v)) (e' : h[c]? = some (q, v')) : b = c := by
  induction p using Nat.strongRecOn with
  | ind p ih =>
    cases p with
    | zero => rw [way_zero] at hb; cases hb
    | succ k =>
      cases ek : h[k]? with
      | none => rw [way] at hb; simp [ek] at hb
      | some x =>
        obtain ⟨q', v''⟩ := x
        have hq := w k q' v'' ek
        rw [way_succ ek hq] at hb hc
        rcases List.mem_append.1 hb with hb1 | hb1 <;> rcases List.mem_append.1 hc with hc1 | hc1
        · exact ih q' (by omega) hb1 hc1
        · rw [List.mem_singleton] at hc1
          subst hc1
          rw [e'] at ek; cases ek
          have := way_lt w hb1
          have := w _ _ _ e
          omega
        · rw [List.mem_singleton] at hb1
          subst hb1
          rw [e] at ek; cases ek
          have := way_lt w hc1
          have := w _ _ _ e'
          omega
        · rw [List.mem_singleton] at hb1 hc1; omega

theorem way_between {h : List (Nat × V)} (w : Back h) {p t b a : Nat} {v : V} (ht : t ∈ way h p) (hb : b ∈ way h p) (lt : t < b)
    (e : h[b]? = some (a + 1, v)) : t ≤ a := by
  induction p using Nat.strongRecOn with
  | ind p ih =>
    cases p with
    | zero => rw [way_zero] at hb; cases hb
    | succ k =>
      cases ek : h[k]? with
      | none => rw [way] at hb; simp [ek] at hb
      | some x =>
        obtain ⟨q', v''⟩ := x
        have hq := w k q' v'' ek
        rw [way_succ ek hq] at hb ht
        rcases List.mem_append.1 ht with ht1 | ht
        · rcases List.mem_append.1 hb with hb | hb
          · exact ih q' (by omega) ht1 hb
          · rw [List.mem_singleton] at hb
            subst hb
            rw [e] at ek; cases ek
            have := way_lt w ht1
            omega
        · rw [List.mem_singleton] at ht
          rcases List.mem_append.1 hb with hb | hb
          · have := way_lt w hb; omega
          · rw [List.mem_singleton] at hb; omega

/-- The way to a point on the way to `p` is part of the way to `p`. -/
theorem way_sub {h : List (Nat × V)} (w : Back h) {p r : Nat} (hr : r ∈ way h p) {t : Nat} (ht : t ∈ way h (r + 1)) : t ∈ way h p := by
  induction p using Nat.strongRecOn with
  | ind p ih =>
    cases p with
    | zero => rw [way_zero] at hr; cases hr
    | succ k =>
      cases ek : h[k]? with
      | none => rw [way] at hr; simp [ek] at hr
      | some x =>
        obtain ⟨q', v''⟩ := x
        have hq := w k q' v'' ek
        by_cases hk : r = k
        · subst hk; exact ht
        · rw [way_succ ek hq] at hr ⊢
          rcases List.mem_append.1 hr with hr | hr
          · exact List.mem_append_left _ (ih q' (by omega) hr)
          · rw [List.mem_singleton] at hr; omega

/-- Depth-first histories keep the points on the current way fresh. -/
theorem depthFirst_fresh_aux {h : List (Nat × V)} (w : Back h) (d : DepthFirst h) (k : Nat) (hk : k ≤ h.length) :
    ∀ t ∈ way h k, ∀ (q : Nat) (v : V), h[t]? = some (q, v) → q ≠ 0 → ∀ (u : Nat) (v' : V), h[u]? = some (q, v') → u < k → u ≤ t := by
  induction k with
  | zero => intro t ht; rw [way_zero] at ht; cases ht
  | succ k ih =>
    intro t ht q v e hq u v' e' hu
    obtain ⟨⟨p, vp⟩, ep⟩ : ∃ x, h[k]? = some x := ⟨_, List.getElem?_eq_getElem (by omega)⟩
    have hp := w k p vp ep
    rw [way_succ ep hp] at ht
    rcases List.mem_append.1 ht with ht1 | ht
    · have htp := way_lt w ht1
      have hqt := w t q v e
      have hpk : t ∈ way h k := by
        cases k with
        | zero => omega
        | succ k' =>
          rcases d k' p vp ep with h0 | h0
          · subst h0; rw [way_zero] at ht1; cases ht1
          · have : p - 1 + 1 = p := by omega
            exact way_sub w h0 (by rw [this]; exact ht1)
      by_cases huk : u = k
      · subst huk
        rw [ep] at e'; cases e'
        omega
      · exact ih (by omega) t hpk q v e hq u v' e' (by omega)
    · rw [List.mem_singleton] at ht; omega

theorem depthFirst_fresh {h : List (Nat × V)} (w : Back h) (d : DepthFirst h) {p : Nat} (hp : p = 0 ∨ p - 1 ∈ way h h.length) : Fresh h p := by
  intro t ht q v e hq u v' e'
  have hu : u < h.length := (List.getElem?_eq_some_iff.1 e').1
  rcases hp with hp | hp
  · subst hp; rw [way_zero] at ht; cases ht
  · have hlt := way_lt w hp
    cases p with
    | zero => rw [way_zero] at ht; cases ht
    | succ p =>
      simp only [Nat.add_sub_cancel] at hp
      exact depthFirst_fresh_aux w d h.length (Nat.le_refl _) t (way_sub w hp ht) q v e hq u v' e' hu

/-! ## The invariant of the model -/

/-- The first delivery on the way to a point. -/
def first (h : List (Nat × V)) (p : Nat) : Option Nat := (way h p).head?

theorem first_succ_root {h : List (Nat × V)} {t : Nat} {v : V} (e : h[t]? = some (0, v)) : first h (t + 1) = some t := by
  rw [first, way_succ e (by omega), way_zero]; rfl

theorem first_succ {h : List (Nat × V)} {t q : Nat} {v : V} (w : Back h) (e : h[t]? = some (q + 1, v)) (hq : q < h.length) :
    first h (t + 1) = first h (q + 1) := by
  obtain ⟨⟨q', v''⟩, e'⟩ : ∃ x, h[q]? = some x := ⟨_, List.getElem?_eq_getElem hq⟩
  rw [first, first, way_succ e (w _ _ _ e), way_succ e' (w _ _ _ e')]
  simp

structure Inv (n : Nat) (h : List (Nat × V)) (s : St V) : Prop where
  hl : s.heap.length = h.length
  pl : s.points.length = h.length + 1
  node : ∀ (t q : Nat) (v : V), h[t]? = some (q, v) → ∃ nx, s.heap[t]? = some ⟨v, nx⟩ ∧
    (∀ u, nx = some u → (∃ v', h[u]? = some (t + 1, v')) ∧ ∀ (u' : Nat) (v' : V), h[u']? = some (t + 1, v') → u' ≤ u) ∧
    (nx = none → ∀ (u' : Nat) (v' : V), h[u']? ≠ some (t + 1, v'))
  point : ∀ p f, s.points[p]? = some f → f.left = n - (path h p).length ∧ f.dummy = first h p ∧
    f.it = (match p with | 0 => Ptr.dummy | t + 1 => Ptr.node t)

theorem inv_start (n : Nat) : Inv n ([] : List (Nat × V)) (start n) := by
  refine ⟨rfl, rfl, ?_, ?_⟩
  · intro t q v e; simp at e
  · intro p f e
    simp only [start, List.getElem?_singleton] at e
    split at e
    · cases e
      rename_i hp
      subst hp
      simp [path_zero, first, way_zero]
    · cases e

theorem setNext_length (heap : List (Node V)) (a b : Nat) : (setNext heap a b).length = heap.length := by
  unfold setNext; split <;> simp

theorem setNext_get (heap : List (Node V)) (a b t : Nat) : (setNext heap a b)[t]? =
    if t = a then (heap[t]?).map (fun nd => { nd with next := some b }) else heap[t]? := by
  unfold setNext
  split
  · rename_i e
    split
    · rename_i h; subst h; simp [e]
    · rfl
  · rename_i nd e
    rw [List.getElem?_set]
    have : a < heap.length := (List.getElem?_eq_some_iff.1 e).1
    by_cases h : t = a
    · subst h; rw [if_pos rfl, if_pos rfl, if_pos this, e]; rfl
    · rw [if_neg (Ne.symm h), if_neg h]

/-- The heap after a delivery. -/
def heap' (s : St V) (p : Nat) (v : V) : List (Node V) :=
  match p with
  | 0 => s.heap ++ [⟨v, none⟩]
  | t + 1 => setNext (s.heap ++ [⟨v, none⟩]) t s.heap.length

theorem deliver_eq {n : Nat} {h : List (Nat × V)} {s : St V} (i : Inv n h s) (w : Back h) {p : Nat} {v : V} (hp : p ≤ h.length) (hd : (path h p).length < n) :
    deliver s p v = (if (path h p).length + 1 = n then .call (follow (heap' s p v) (heap' s p v).length (first (h ++ [(p, v)]) (h.length + 1))) else .more,
      ⟨heap' s p v, s.points ++ [⟨first (h ++ [(p, v)]) (h.length + 1), .node h.length, n - ((path h p).length + 1)⟩]⟩) := by
  obtain ⟨f, ef⟩ : ∃ f, s.points[p]? = some f := ⟨_, List.getElem?_eq_getElem (by rw [i.pl]; omega)⟩
  obtain ⟨h1, h2, h3⟩ := i.point p f ef
  have w' : Back (h ++ [(p, v)]) := by
    intro t q v' e
    by_cases ht : t < h.length
    · rw [List.getElem?_append_left ht] at e; exact w t q v' e
    · have : t < (h ++ [(p, v)]).length := (List.getElem?_eq_some_iff.1 e).1
      simp at this
      have ht : t = h.length := by omega
      subst ht
      simp at e
      omega
  have el : (h ++ [(p, v)])[h.length]? = some (p, v) := by simp
  unfold deliver
  simp only [ef]
  rw [if_neg (by omega)]
  cases p with
  | zero =>
    simp only [h3, heap', i.hl]
    rw [first_succ_root el]
    rw [path_zero] at *
    simp only [List.length_nil] at *
    by_cases hn : f.left = 1
    · rw [if_pos hn, if_pos (by omega), h1]; simp [Nat.sub_sub]
    · rw [if_neg hn, if_neg (by omega), h1]; simp [Nat.sub_sub]
  | succ t =>
    simp only [h3, heap', i.hl]
    rw [first_succ w' el (by simp; omega), h2]
    have e3 : first (h ++ [(t + 1, v)]) (t + 1) = first h (t + 1) := by rw [first, first, way_append _ _ _ hp]
    rw [e3]
    by_cases hn : f.left = 1
    · rw [if_pos hn, if_pos (by omega), h1]; simp [Nat.sub_sub]
    · rw [if_neg hn, if_neg (by omega), h1]; simp [Nat.sub_sub]

theorem back_snoc {h : List (Nat × V)} (w : Back h) {p : Nat} {v : V} (hp : p ≤ h.length) : Back (h ++ [(p, v)]) := by
  intro t q v' e
  by_cases ht : t < h.length
  · rw [List.getElem?_append_left ht] at e; exact w t q v' e
  · have : t < (h ++ [(p, v)]).length := (List.getElem?_eq_some_iff.1 e).1
    simp at this
    have ht : t = h.length := by omega
    subst ht
    simp at e
    omega

theorem inv_deliver {n : Nat} {h : List (Nat × V)} {s : St V} (i : Inv n h s) (w : Back h) {p : Nat} {v : V} (hp : p ≤ h.length) (hd : (path h p).length < n) :
    Inv n (h ++ [(p, v)]) (deliver s p v).2 := by
  have w' := back_snoc (v := v) w hp
  have el : (h ++ [(p, v)])[h.length]? = some (p, v) := by simp
  rw [deliver_eq i w hp hd]
  have hh : (heap' s p v).length = h.length + 1 := by cases p <;> simp [heap', setNext_length, i.hl]
  have hget : ∀ t, t < h.length → (heap' s p v)[t]? = if p = t + 1 then (s.heap[t]?).map (fun nd => { nd with next := some h.length }) else s.heap[t]? := by
    intro t ht
    have e0 : (s.heap ++ [⟨v, none⟩])[t]? = s.heap[t]? := List.getElem?_append_left (by rw [i.hl]; exact ht)
    cases p with
    | zero => rw [if_neg (by omega)]; simpa [heap'] using e0
    | succ p =>
      simp only [heap', setNext_get, e0, i.hl]
      by_cases hpt : t = p
      · subst hpt; simp
      · rw [if_neg hpt, if_neg (by omega)]
  have hnew : (heap' s p v)[h.length]? = some ⟨v, none⟩ := by
    have e0 : (s.heap ++ [⟨v, none⟩])[h.length]? = some ⟨v, none⟩ := by rw [← i.hl]; simp
    cases p with
    | zero => simpa [heap'] using e0
    | succ p => simp only [heap', setNext_get, e0]; rw [if_neg (by omega)]
  refine ⟨by simpa using hh, by simp [i.pl], ?_, ?_⟩
  · intro t q v' e
    by_cases ht : t < h.length
    · rw [List.getElem?_append_left ht] at e
      obtain ⟨nx, e1, e2, e3⟩ := i.node t q v' e
      simp only [hget t ht, e1]
      by_cases hpt : p = t + 1
      · subst hpt
        refine ⟨some h.length, by simp, ?_, by simp⟩
        intro u hu
        cases hu
        refine ⟨⟨v, el⟩, ?_⟩
        intro u' v'' e'
        have : u' < (h ++ [(t + 1, v)]).length := (List.getElem?_eq_some_iff.1 e').1
        simp at this; omega
      · refine ⟨nx, by simp [hpt], ?_, ?_⟩
        · intro u hu
          obtain ⟨⟨v1, e4⟩, e5⟩ := e2 u hu
          have hul : u < h.length := (List.getElem?_eq_some_iff.1 e4).1
          refine ⟨⟨v1, by rw [List.getElem?_append_left hul]; exact e4⟩, ?_⟩
          intro u' v'' e'
          by_cases hu' : u' < h.length
          · rw [List.getElem?_append_left hu'] at e'; exact e5 u' v'' e'
          · have : u' < (h ++ [(p, v)]).length := (List.getElem?_eq_some_iff.1 e').1
            simp at this
            have : u' = h.length := by omega
            subst this
            rw [el] at e'; cases e'; exact absurd rfl hpt
        · intro hn u' v'' e'
          by_cases hu' : u' < h.length
          · rw [List.getElem?_append_left hu'] at e'; exact e3 hn u' v'' e'
          · have : u' < (h ++ [(p, v)]).length := (List.getElem?_eq_some_iff.1 e').1
            simp at this
            have : u' = h.length := by omega
            subst this
            rw [el] at e'; cases e'; exact absurd rfl hpt
    · have : t < (h ++ [(p, v)]).length := (List.getElem?_eq_some_iff.1 e).1
      simp at this
      have ht : t = h.length := by omega
      subst ht
      rw [el] at e; cases e
      refine ⟨none, hnew, by simp, ?_⟩
      intro _ u' v'' e'
      have : u' < (h ++ [(p, v)]).length := (List.getElem?_eq_some_iff.1 e').1
      have := w' _ _ _ e'
      simp at *; omega
  · intro k f e
    by_cases hk : k < h.length + 1
    · have e' : s.points[k]? = some f := by
        rwa [List.getElem?_append_left (by rw [i.pl]; exact hk)] at e
      have := i.point k f e'
      rw [path_append _ _ _ (by omega), first, way_append _ _ _ (by omega)]
      exact this
    · have : k < (s.points ++ [(⟨first (h ++ [(p, v)]) (h.length + 1), .node h.length, n - ((path h p).length + 1)⟩ : Frame)]).length :=
        (List.getElem?_eq_some_iff.1 e).1
      simp [i.pl] at this
      have hk : k = h.length + 1 := by omega
      subst hk
      rw [List.getElem?_append_right (by rw [i.pl]; omega), i.pl, Nat.sub_self] at e
      simp only [List.getElem?_cons_zero, Option.some.injEq] at e
      subst e
      refine ⟨?_, rfl, rfl⟩
      rw [path_succ el (by omega), path_append _ _ _ hp]
      simp

theorem valid_prefix {n : Nat} {h h' : List (Nat × V)} (w : Valid n (h ++ h')) : Valid n h := by
  intro t q v e
  have ht : t < h.length := (List.getElem?_eq_some_iff.1 e).1
  have := w t q v (by rw [List.getElem?_append_left ht]; exact e)
  rwa [path_append _ _ _ (by omega)] at this

theorem delivers_append (s : St V) (h h' : List (Nat × V)) : delivers s (h ++ h') = delivers (delivers s h) h' := by
  induction h generalizing s with
  | nil => rfl
  | cons x h ih => obtain ⟨p, v⟩ := x; simp only [List.cons_append, delivers]; exact ih _

theorem inv_delivers {n : Nat} (h : List (Nat × V)) (w : Valid n h) : Inv n h (delivers (start n) h) := by
  have key : ∀ k, k ≤ h.length → Inv n (h.take k) (delivers (start n) (h.take k)) := by
    intro k
    induction k with
    | zero => intro _; exact inv_start n
    | succ k ih =>
      intro hk
      have e : h.take (k + 1) = h.take k ++ [h[k]] := by rw [List.take_succ_eq_append_getElem (by omega)]
      have hw : Valid n (h.take k) := by
        apply valid_prefix (h' := h.drop k); rw [List.take_append_drop]; exact w
      obtain ⟨⟨p, v⟩, ep⟩ : ∃ x, h[k] = x := ⟨_, rfl⟩
      have hv := w k p v (by rw [List.getElem?_eq_getElem (by omega), ep])
      have hl : (h.take k).length = k := by simp; omega
      have hpath : path (h.take k) p = path h p := by
        have := path_append (h.take k) (h.drop k) p (by omega)
        rw [List.take_append_drop] at this
        exact this.symm
      rw [e, ep, delivers_append]
      exact inv_deliver (ih (by omega)) hw.back (by omega) (by rw [hpath]; exact hv.2)
  have := key h.length (Nat.le_refl _)
  rwa [List.take_length] at this

theorem follow_path {n : Nat} {h : List (Nat × V)} {s : St V} (i : Inv n h s) (w : Back h) {p : Nat} (hp : p ≤ h.length) (h0 : p ≠ 0) (fr : Fresh h p)
    (fuel : Nat) (hf : p ≤ fuel) : ∃ nd fuel', s.heap[p - 1]? = some nd ∧
      follow s.heap fuel (first h p) = path h p ++ follow s.heap fuel' nd.next ∧ fuel ≤ fuel' + p := by
  induction p using Nat.strongRecOn generalizing fuel with
  | ind p ih =>
    cases p with
    | zero => exact absurd rfl h0
    | succ t =>
      obtain ⟨⟨q, v⟩, e⟩ : ∃ x, h[t]? = some x := ⟨_, List.getElem?_eq_getElem (by omega)⟩
      have hq := w t q v e
      obtain ⟨nx, e1, e2, e3⟩ := i.node t q v e
      refine ⟨⟨v, nx⟩, ?_⟩
      cases q with
      | zero =>
        obtain ⟨f, rfl⟩ : ∃ f, fuel = f + 1 := ⟨fuel - 1, by omega⟩
        refine ⟨f, by simpa using e1, ?_, by omega⟩
        rw [first_succ_root e, path_succ e hq, path_zero]
        simp [follow, e1]
      | succ q =>
        have fq : Fresh h (q + 1) := by
          intro t' ht' ; exact fr t' (by rw [way_succ e hq]; exact List.mem_append_left _ ht')
        obtain ⟨nd, f, g1, g2, g3⟩ := ih (q + 1) (by omega) (by omega) (by omega) fq fuel (by omega)
        obtain ⟨⟨q', v''⟩, e'⟩ : ∃ x, h[q]? = some x := ⟨_, List.getElem?_eq_getElem (by omega)⟩
        obtain ⟨nx', k1, k2, k3⟩ := i.node q q' v'' e'
        simp only [Nat.add_sub_cancel] at g1
        rw [k1] at g1; cases g1
        have hnx : nx' = some t := by
          cases nx' with
          | none => exact absurd e (k3 rfl t v)
          | some u =>
            obtain ⟨⟨v1, e4⟩, e5⟩ := k2 u rfl
            have h1 := e5 t v e
            have h2 := fr t (by rw [way_succ e hq]; simp) (q + 1) v e (by omega) u v1 e4
            congr 1; omega
        subst hnx
        obtain ⟨f', rfl⟩ : ∃ f', f = f' + 1 := ⟨f - 1, by omega⟩
        refine ⟨f', by simpa using e1, ?_, by omega⟩
        rw [first_succ w e (by omega), path_succ e hq, g2]
        simp [follow, e1]

/-! ## Stale points -/

/-- Two heaps that differ at most in the datum of the node `N`. -/
def SameBut (N : Nat) (a b : List (Node V)) : Prop :=
  ∀ t, (a[t]?).map (·.next) = (b[t]?).map (·.next) ∧ (t ≠ N → a[t]? = b[t]?)

theorem follow_off {h : List (Nat × V)} (w : Back h) {N : Nat} {a b : List (Node V)} (sb : SameBut N a b)
    (nxt : ∀ t nd u, a[t]? = some nd → nd.next = some u → t < h.length ∧ ∃ v', h[u]? = some (t + 1, v'))
    (hN : N ∈ way h (N + 1)) (fuel : Nat) (t : Nat) (ht : t ∉ way h (N + 1)) : follow a fuel (some t) = follow b fuel (some t) := by
  induction fuel generalizing t with
  | zero => rfl
  | succ fuel ih =>
    have htN : t ≠ N := fun e => ht (e ▸ hN)
    have e := (sb t).2 htN
    simp only [follow, ← e]
    split
    · rfl
    · rename_i nd en
      congr 1
      cases hn : nd.next with
      | none => cases fuel <;> rfl
      | some u =>
        obtain ⟨hl, v', e'⟩ := nxt t nd u en hn
        exact ih u (fun hu => ht (way_parent w hu e' hl))

theorem follow_stale {h : List (Nat × V)} (w : Back h) {N : Nat} {a b : List (Node V)} (sb : SameBut N a b)
    (nxt : ∀ t nd u, a[t]? = some nd → nd.next = some u → t < h.length ∧ (∃ v', h[u]? = some (t + 1, v')) ∧ ∀ (u' : Nat) (v' : V), h[u']? = some (t + 1, v') → u' ≤ u)
    (hN : N ∈ way h (N + 1)) {st q u : Nat} {v v' : V} (hst : st ∈ way h (N + 1)) (e : h[st]? = some (q, v)) (eu : h[u]? = some (q, v')) (hu : st < u)
    (fuel : Nat) (t : Nat) (ht : t ∈ way h (N + 1)) (hlt : t < st) : follow a fuel (some t) = follow b fuel (some t) := by
  induction fuel generalizing t with
  | zero => rfl
  | succ fuel ih =>
    have hsN := way_lt w hst
    have htN : t ≠ N := by omega
    have e1 := (sb t).2 htN
    simp only [follow, ← e1]
    split
    · rfl
    · rename_i nd en
      congr 1
      cases hn : nd.next with
      | none => cases fuel <;> rfl
      | some k =>
        obtain ⟨hl, ⟨vk, ek⟩, hlast⟩ := nxt t nd k en hn
        by_cases hk : k ∈ way h (N + 1)
        · by_cases h1 : k < st
          · exact ih k hk h1
          · by_cases h2 : k = st
            · subst h2
              rw [e] at ek; cases ek
              have := hlast u v' eu
              omega
            · have := way_between w hst hk (by omega) ek
              omega
        · exact follow_off w sb (fun t nd u h1 h2 => ⟨(nxt t nd u h1 h2).1, (nxt t nd u h1 h2).2.1⟩) hN fuel k hk

end Pscm.Re
