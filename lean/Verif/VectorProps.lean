import Verif.Vector
import Verif.ListProps2
import Verif.ListProps
/-! # Properties C29–C30: vectors -/
namespace Pscm
open Spec

/-- For examples: vector 0 `#(1 2 3)`, vector 1 `#(7)`, list `(1 2)` at node 0. -/
def exVH : Heap where
  nodes := [⟨exNum 1, some 1, false⟩, ⟨exNum 2, none, false⟩]
  vecs := [[exNum 1, exNum 2, exNum 3], [exNum 7]]
  strs := []
  nextId := 5000
def exV0 : Obj := ⟨80, .vec 0⟩

theorem vecOf_ok {h : Heap} {o : Obj} {a xs} (hv : o.v = .vec a) (hx : h.vecs[a]? = some xs) :
    vecOf o h = (.ok (a, xs), h) := by simp [vecOf, hv, hx]

/-! ## C29 — bounds and read-after-write -/

/-- C29: `vector-ref` in range is the element, out of range or with a non-integer index it is a Scheme error; the heap
never changes. -/
theorem c29_ref (h : Heap) (o k : Obj) (a : Addr) (xs : List Obj) (hv : o.v = .vec a) (hx : h.vecs[a]? = some xs) :
    (∀ (i : Nat) x, k.v = .num i → xs[i]? = some x → vectorRef o k h = (.ok x, h)) ∧
    ((∀ i : Nat, k.v = .num i → xs.length ≤ i) → vectorRef o k h = (.err .evalError, h)) := by
  constructor
  · intro i x hk hi
    have hlt : i < xs.length := by
      by_cases h' : i < xs.length
      · exact h'
      · rw [List.getElem?_eq_none (by omega)] at hi; cases hi
    simp only [vectorRef]
    rw [M.bind_ok (vecOf_ok hv hx)]
    simp only
    rw [M.bind_ok (a := i) (h' := h) (by simp [vecIndex, hk]; omega)]
    simp [hi]
  · intro hk
    simp only [vectorRef]
    rw [M.bind_ok (vecOf_ok hv hx)]
    simp only
    refine M.bind_err ?_
    simp only [M.lift_app, vecIndex]
    cases hkv : k.v with
    | num n =>
      by_cases hn : n < 0
      · simp [hn]
      · have := hk n.toNat (by rw [hkv]; congr 1; omega)
        simp only
        rw [if_pos (by omega)]
    | _ => rfl

example : exV0.v = .vec 0 ∧ exVH.vecs[0]? = some [exNum 1, exNum 2, exNum 3] ∧
    vectorRef exV0 (exNum 2) exVH = (.ok (exNum 3), exVH) ∧
    vectorRef exV0 (exNum 3) exVH = (.err .evalError, exVH) ∧
    vectorRef exV0 ⟨9, .num (-1)⟩ exVH = (.err .evalError, exVH) := by decide

/-- C29: `vector-set!` in range replaces exactly that slot of exactly that vector; out of range it is a Scheme error and
nothing changes. -/
theorem c29_set (h : Heap) (o k x : Obj) (a : Addr) (xs : List Obj) (hv : o.v = .vec a) (hx : h.vecs[a]? = some xs) :
    (∀ i : Nat, k.v = .num i → i < xs.length → ∃ h', vectorSet o k x h = (.ok Obj.none, h') ∧
      h'.vecs[a]? = some (xs.set i x) ∧ (∀ b, b ≠ a → h'.vecs[b]? = h.vecs[b]?) ∧ h'.nodes = h.nodes ∧
      h'.strs = h.strs) ∧
    ((∀ i : Nat, k.v = .num i → xs.length ≤ i) → vectorSet o k x h = (.err .evalError, h)) := by
  have halt : a < h.vecs.length := by
    by_cases h' : a < h.vecs.length
    · exact h'
    · rw [List.getElem?_eq_none (by omega)] at hx; cases hx
  constructor
  · intro i hk hi
    refine ⟨{ h with vecs := h.vecs.set a (xs.set i x) }, ?_, ?_, ?_, rfl, rfl⟩
    · simp only [vectorSet]
      rw [M.bind_ok (vecOf_ok hv hx)]
      simp only
      rw [M.bind_ok (a := i) (h' := h) (by simp [vecIndex, hk]; omega)]
      simp [writeVec, hi]
    · simp [halt]
    · intro b hb
      show (h.vecs.set a _)[b]? = _
      rw [List.getElem?_set_ne (Ne.symm hb)]
  · intro hk
    simp only [vectorSet]
    rw [M.bind_ok (vecOf_ok hv hx)]
    simp only
    refine M.bind_err ?_
    simp only [M.lift_app, vecIndex]
    cases hkv : k.v with
    | num n =>
      by_cases hn : n < 0
      · simp [hn]
      · have := hk n.toNat (by rw [hkv]; congr 1; omega)
        simp only
        rw [if_pos (by omega)]
    | _ => rfl

example : exV0.v = .vec 0 ∧ exVH.vecs[0]? = some [exNum 1, exNum 2, exNum 3] ∧
    vectorSet exV0 (exNum 1) (exNum 9) exVH = (.ok Obj.none, { exVH with vecs := [[exNum 1, exNum 9, exNum 3], [exNum 7]] }) :=
  by decide

/-- C29: a vector operation on anything but a vector is a Scheme error. -/
theorem c29_non_vector (h : Heap) (o k x : Obj) (hv : o.v.ty ≠ .vector) :
    vectorRef o k h = (.err .evalError, h) ∧ vectorSet o k x h = (.err .evalError, h) ∧
    vectorLength o h = (.err .evalError, h) ∧ vectorToList o h = (.err .evalError, h) := by
  have : vecOf o h = (.err .evalError, h) := by
    unfold vecOf
    cases hh : o.v <;> simp_all [Val.ty]
  exact ⟨M.bind_err this, M.bind_err this, M.bind_err this, M.bind_err this⟩

example : (exNum 3).v.ty ≠ .vector := by decide

/-- Execute a sequence of `vector-set!` calls on one vector; a failing call is caught and the sequence goes on. -/
def runSets (o : Obj) : List (Obj × Obj) → Heap → Heap
  | [], h => h
  | (k, x) :: ops, h => runSets o ops (vectorSet o k x h).2

/-- The value last written at index `i` in the sequence, starting from `d`. -/
def Spec.lastWrite (i : Nat) (d : Obj) : List (Obj × Obj) → Obj
  | [] => d
  | (k, x) :: ops => Spec.lastWrite i (if k.v = .num i then x else d) ops

/-- C29, for any history: after any sequence of `vector-set!` calls (with any arguments, in or out of range), `vector-ref` at
each valid index returns the last value written there, or the initial one; the length is unchanged. -/
theorem c29_history (o k : Obj) (a : Addr) (i : Nat) (d : Obj) (hv : o.v = .vec a) (hk : k.v = .num i) :
    ∀ (ops : List (Obj × Obj)) (h : Heap) (xs : List Obj), h.vecs[a]? = some xs → xs[i]? = some d →
      vectorRef o k (runSets o ops h) = (.ok (lastWrite i d ops), runSets o ops h) ∧
      ∃ ys, (runSets o ops h).vecs[a]? = some ys ∧ ys.length = xs.length := by
  intro ops
  induction ops generalizing d with
  | nil => intro h xs hx hi; exact ⟨(c29_ref h o k a xs hv hx).1 i d hk hi, xs, hx, rfl⟩
  | cons op ops ih =>
    obtain ⟨k', x⟩ := op
    intro h xs hx hi
    have hlt : i < xs.length := by
      by_cases h' : i < xs.length
      · exact h'
      · rw [List.getElem?_eq_none (by omega)] at hi; cases hi
    by_cases hin : ∃ j : Nat, k'.v = .num j ∧ j < xs.length
    · obtain ⟨j, hj, hjl⟩ := hin
      obtain ⟨h', e, hget, -⟩ := (c29_set h o k' x a xs hv hx).1 j hj hjl
      simp only [runSets, e, lastWrite]
      have := ih (if k'.v = .num i then x else d) h' (xs.set j x) hget (by
        rw [hj]
        by_cases hij : j = i
        · subst hij; simp [hjl]
        · have : ¬ ((j : Int) = (i : Int)) := by omega
          simp only [Val.num.injEq, this, if_false]
          rw [List.getElem?_set_ne hij, hi])
      simpa using this
    · have e := (c29_set h o k' x a xs hv hx).2 (fun j hj => by
        by_cases hjl : j < xs.length
        · exact absurd ⟨j, hj, hjl⟩ hin
        · omega)
      have hki : ¬ k'.v = .num i := fun hh => hin ⟨i, hh, hlt⟩
      simp only [runSets, e, lastWrite, hki, if_false]
      exact ih d h xs hx hi

example : exV0.v = .vec 0 ∧ (exNum 1).v = .num (1 : Nat) ∧
    lastWrite 1 (exNum 2) [(exNum 1, exNum 8), (exNum 0, exNum 4), (exNum 1, exNum 9), (exNum 77, exNum 3)] = exNum 9 := by
  decide

/-- C29: `make-vector` and `vector` create a new vector with the requested contents; existing objects do not change. -/
theorem c29_make (h : Heap) (k fill : Obj) (n : Nat) (args : List Obj) (hk : k.v = .num n) (hn : n < 2 ^ 60) :
    (∃ o h', makeVector [k, fill] h = (.ok o, h') ∧ o.v = .vec h.vecs.length ∧
      h'.vecs = h.vecs ++ [List.replicate n fill] ∧ h'.nodes = h.nodes ∧ h'.strs = h.strs) ∧
    (∃ o h', makeVector [k] h = (.ok o, h') ∧ o.v = .vec h.vecs.length ∧
      h'.vecs = h.vecs ++ [List.replicate n Obj.none] ∧ h'.nodes = h.nodes ∧ h'.strs = h.strs) ∧
    (∃ o h', vector args h = (.ok o, h') ∧ o.v = .vec h.vecs.length ∧ h'.vecs = h.vecs ++ [args] ∧
      h'.nodes = h.nodes ∧ h'.strs = h.strs) := by
  have hneg : ¬ ((n : Int) < 0) := by omega
  have hbig : ¬ ((2 : Int) ^ 60 ≤ n) := by omega
  refine ⟨⟨⟨h.nextId, .vec h.vecs.length⟩, { h with vecs := h.vecs ++ [List.replicate n fill], nextId := h.nextId + 1 }, ?_, rfl, rfl, rfl, rfl⟩,
    ⟨⟨h.nextId, .vec h.vecs.length⟩, { h with vecs := h.vecs ++ [List.replicate n Obj.none], nextId := h.nextId + 1 }, ?_, rfl, rfl, rfl, rfl⟩,
    ⟨⟨h.nextId, .vec h.vecs.length⟩, { h with vecs := h.vecs ++ [args], nextId := h.nextId + 1 }, rfl, rfl, rfl, rfl, rfl⟩⟩
  · simp only [makeVector, makeVectorImpl, hk]
    rw [if_neg hneg, if_neg hbig]
    simp [newVec]
  · simp only [makeVector, makeVectorImpl, hk]
    rw [if_neg hneg, if_neg hbig]
    simp [newVec]

example : (exNum 3).v = .num (3 : Nat) ∧ 3 < 2 ^ 60 := by decide

/-! ## C30 — conversions -/

theorem vecToListLoop_spec (xs : List Obj) : ∀ (k : Nat) (r : Option Addr) (h0 h : Heap) (ns : List (Addr × Node)),
    k ≤ xs.length → Ext h0 h → Path h r ns → (∀ x ∈ ns, x.2.dotted = false) → (∀ x ∈ ns, h0.nodes.length ≤ x.1) →
    ∃ q h' ms, vecToListLoop xs k r h = (.ok q, h') ∧ Ext h0 h' ∧ Path h' q ms ∧
      ms.map (·.2.data) = xs.take k ++ ns.map (·.2.data) ∧ (∀ x ∈ ms, x.2.dotted = false) ∧
      (∀ x ∈ ms, h0.nodes.length ≤ x.1)
  | 0, r, h0, h, ns, _, he, hp, hd, hg => ⟨r, h, ns, rfl, he, hp, by simp, hd, hg⟩
  | k + 1, r, h0, h, ns, hk, he, hp, hd, hg => by
    have hget : xs[k]? = some xs[k] := by simp
    have hext := ext_push h ⟨xs[k], r, false⟩
    obtain ⟨q, h', ms, e, e2, p2, m2, d2, g2⟩ := vecToListLoop_spec xs k (some h.nodes.length) h0
      { h with nodes := h.nodes ++ [⟨xs[k], r, false⟩] } ((h.nodes.length, ⟨xs[k], r, false⟩) :: ns) (by omega)
      (he.trans hext) ⟨rfl, by simp, hp.mono hext⟩
      (by
        intro x hx
        rcases List.mem_cons.1 hx with rfl | hx
        · rfl
        · exact hd x hx)
      (by
        intro x hx
        rcases List.mem_cons.1 hx with rfl | hx
        · exact he.len
        · exact hg x hx)
    refine ⟨q, h', ms, ?_, e2, p2, ?_, d2, g2⟩
    · simp only [vecToListLoop, hget]
      rw [M.bind_ok (h := h) (a := h.nodes.length) (h' := { h with nodes := h.nodes ++ [⟨xs[k], r, false⟩] }) rfl, e]
    · rw [m2, List.take_add_one, hget]
      simp only [List.map_cons, Option.toList, List.append_assoc, List.cons_append, List.nil_append]

theorem chainData_path {h : Heap} : ∀ {ns : List (Addr × Node)} {a fuel}, Path h (some a) ns → ns.length ≤ fuel →
    chainData fuel a h = (.ok (ns.map (·.2.data)), h)
  | [], a, _, hp, _ => by simp [Path] at hp
  | (b, n) :: r, a, 0, _, hf => by simp at hf
  | (b, n) :: r, a, fuel + 1, ⟨h1, h2, h3⟩, hf => by
    cases h1
    simp only [chainData]
    rw [M.bind_ok (getNode_ok h2)]
    cases hn : n.next with
    | none =>
      rw [hn] at h3
      cases r with
      | nil => rfl
      | cons y ys => exact absurd h3.1 (by simp)
    | some c =>
      rw [hn] at h3
      simp only
      rw [M.bind_ok (chainData_path h3 (by simp at hf; omega))]
      rfl

/-- C30: `vector->list` returns a new proper list with the elements of the vector, and changes nothing.  Partial: vectors
shorter than `2^31` (the loop counter is a C++ `int`, see `c30_counterexample`). -/
theorem c30_vector_to_list_partial (h : Heap) (o : Obj) (a : Addr) (xs : List Obj) (hv : o.v = .vec a)
    (hx : h.vecs[a]? = some xs) (hlen : xs.length < 2 ^ 31) :
    ∃ r h' as, vectorToList o h = (.ok r, h') ∧ ProperList h' r as xs ∧ Ext h h' ∧ ∀ b ∈ as, h.nodes.length ≤ b := by
  simp only [vectorToList]
  rw [M.bind_ok (vecOf_ok hv hx)]
  simp only
  by_cases h0 : xs.length = 0
  · rw [if_pos h0]
    have : xs = [] := List.length_eq_zero_iff.1 h0
    subst this
    exact ⟨Obj.nil, h, [], rfl, ⟨none, [], rfl, rfl, rfl, rfl, by simp⟩, Ext.refl h, by simp⟩
  · rw [if_neg h0]
    have hi : i32 (toI32 xs.length - 1) = .ok ((xs.length : Int) - 1) := by
      have : toI32 xs.length = xs.length := by
        unfold toI32
        have : xs.length % 2 ^ 32 = xs.length := Nat.mod_eq_of_lt (by omega)
        simp only [this]
        rw [if_pos hlen]
      rw [this]
      unfold i32
      rw [if_pos (by omega)]
    rw [hi]
    rw [M.bind_ok (x := M.lift _) (a := (xs.length : Int) - 1) (h' := h) rfl]
    have hk : ((xs.length : Int) - 1 + 1).toNat = xs.length := by omega
    rw [hk]
    obtain ⟨q, h', ms, e, e2, p2, m2, d2, g2⟩ := vecToListLoop_spec xs xs.length none h h [] (Nat.le_refl _) (Ext.refl h)
      rfl (by simp) (by simp)
    rw [M.bind_ok e]
    simp at m2
    have hge : ∀ b ∈ ms.map (·.1), h.nodes.length ≤ b := by
      intro b hb
      obtain ⟨x, hx, rfl⟩ := List.mem_map.1 hb
      exact g2 x hx
    cases q with
    | none => exact ⟨Obj.nil, h', ms.map (·.1), rfl, ⟨none, ms, rfl, p2, rfl, m2, d2⟩, e2, hge⟩
    | some q =>
      have e3 := ext_newId h' (h'.nextId + 1) (by omega)
      exact ⟨⟨h'.nextId, .list q⟩, { h' with nextId := h'.nextId + 1 }, ms.map (·.1), rfl,
        ⟨some q, ms, rfl, p2.mono e3, rfl, m2, d2⟩, e2.trans e3, hge⟩

example : exV0.v = .vec 0 ∧ exVH.vecs[0]? = some [exNum 1, exNum 2, exNum 3] ∧ 3 < 2 ^ 31 := by decide

/-- C30: `list->vector` of a list makes a new vector with its elements. -/
theorem c30_list_to_vector (h : Heap) (o : Obj) (as : List Addr) (xs : List Obj) (fuel : Nat)
    (hl : ProperList h o as xs) (hf : xs.length < fuel) :
    ∃ r h', listToVector fuel o h = (.ok r, h') ∧ r.v = .vec h.vecs.length ∧ h'.vecs = h.vecs ++ [xs] ∧
      h'.nodes = h.nodes ∧ h'.strs = h.strs := by
  rcases hl.cases with ⟨hv, -, rfl⟩ | ⟨a, ns, hv, hp, ha, hx, hd, hnl, -⟩
  · exact ⟨⟨h.nextId, .vec h.vecs.length⟩, { h with vecs := h.vecs ++ [[]], nextId := h.nextId + 1 },
      by simp only [listToVector, hv]; rfl, rfl, rfl, rfl, rfl⟩
  · refine ⟨⟨h.nextId, .vec h.vecs.length⟩, { h with vecs := h.vecs ++ [xs], nextId := h.nextId + 1 }, ?_, rfl, rfl, rfl, rfl⟩
    simp only [listToVector, hv]
    rw [M.bind_ok (chainData_path hp (by omega)), hx]
    rfl

example : ProperList exVH ⟨81, .list 0⟩ [0, 1] [exNum 1, exNum 2] :=
  ⟨some 0, [(0, ⟨exNum 1, some 1, false⟩), (1, ⟨exNum 2, none, false⟩)], rfl, ⟨rfl, rfl, rfl, rfl, rfl⟩, rfl, rfl, by decide⟩

/-- C30: the two conversions are inverse on contents, both ways (vectors below `2^31` elements). -/
theorem c30_inverse_partial (h : Heap) (o l : Obj) (a : Addr) (xs ys : List Obj) (as : List Addr) (fuel : Nat)
    (hv : o.v = .vec a) (hx : h.vecs[a]? = some xs) (hlen : xs.length < 2 ^ 31)
    (hl : ProperList h l as ys) (hlen' : ys.length < 2 ^ 31) (hf : xs.length < fuel) (hf' : ys.length < fuel) :
    (∃ r h1 r' h2, vectorToList o h = (.ok r, h1) ∧ listToVector fuel r h1 = (.ok r', h2) ∧
      r'.v = .vec h1.vecs.length ∧ h2.vecs = h1.vecs ++ [xs]) ∧
    (∃ r h1 r' h2 as', listToVector fuel l h = (.ok r, h1) ∧ vectorToList r h1 = (.ok r', h2) ∧
      ProperList h2 r' as' ys) := by
  constructor
  · obtain ⟨r, h1, bs, e1, pl, -, -⟩ := c30_vector_to_list_partial h o a xs hv hx hlen
    obtain ⟨r', h2, e2, v2, k2, -⟩ := c30_list_to_vector h1 r bs xs fuel pl hf
    exact ⟨r, h1, r', h2, e1, e2, v2, k2⟩
  · obtain ⟨r, h1, e1, v1, k1, -⟩ := c30_list_to_vector h l as ys fuel hl hf'
    obtain ⟨r', h2, bs, e2, pl, -, -⟩ := c30_vector_to_list_partial h1 r _ ys v1 (by rw [k1]; simp) hlen'
    exact ⟨r, h1, r', h2, bs, e1, e2, pl⟩

example : exV0.v = .vec 0 ∧ exVH.vecs[0]? = some [exNum 1, exNum 2, exNum 3] ∧ 3 < 2 ^ 31 ∧ 2 < 2 ^ 31 ∧ 3 < 10 := by decide

/-- C30 fails for huge vectors: with `2^31` elements the C++ program has undefined behaviour (signed overflow of the loop
counter), with `2^32 + 1` elements it returns a list of one element. -/
theorem c30_counterexample (h : Heap) (o : Obj) (a : Addr) (xs : List Obj) (hv : o.v = .vec a)
    (hx : h.vecs[a]? = some xs) :
    (xs.length = 2 ^ 31 → vectorToList o h = (.ub, h)) ∧
    (xs.length = 2 ^ 32 + 1 → ∃ r h' as, vectorToList o h = (.ok r, h') ∧ ProperList h' r as (xs.take 1)) := by
  constructor
  · intro hl
    simp only [vectorToList]
    rw [M.bind_ok (vecOf_ok hv hx)]
    simp only
    rw [if_neg (by omega), hl]
    have : i32 (toI32 (2 ^ 31) - 1) = .ub := by decide
    rw [this]
    rfl
  · intro hl
    simp only [vectorToList]
    rw [M.bind_ok (vecOf_ok hv hx)]
    simp only
    rw [if_neg (by omega), hl]
    have : i32 (toI32 (2 ^ 32 + 1) - 1) = .ok 0 := by decide
    rw [this]
    rw [M.bind_ok (x := M.lift _) (a := 0) (h' := h) rfl]
    obtain ⟨q, h', ms, e, e2, p2, m2, d2, g2⟩ := vecToListLoop_spec xs 1 none h h []
      (by omega) (Ext.refl h) rfl (by simp) (by simp)
    have hk : ((0 : Int) + 1).toNat = 1 := rfl
    rw [hk, M.bind_ok e]
    have m2' : ms.map (·.2.data) = xs.take 1 := by
      rw [m2]; simp
    cases q with
    | none => exact ⟨Obj.nil, h', ms.map (·.1), rfl, ⟨none, ms, rfl, p2, rfl, m2', d2⟩⟩
    | some q =>
      have e3 := ext_newId h' (h'.nextId + 1) (by omega)
      exact ⟨⟨h'.nextId, .list q⟩, { h' with nextId := h'.nextId + 1 }, ms.map (·.1), rfl,
        some q, ms, rfl, p2.mono e3, rfl, m2', d2⟩

example : ∃ (h : Heap) (xs : List Obj), h.vecs[0]? = some xs ∧ xs.length = 2 ^ 32 + 1 :=
  ⟨{ nodes := [], vecs := [List.replicate (2 ^ 32 + 1) Obj.nil], strs := [], nextId := 9 }, _, rfl, List.length_replicate⟩

end Pscm
