import Verif.AlistLemmas2
/-!
# Properties C23–C25: association lists

An alist is any finite chain of elements (`RawList`); elements that are not pairs are allowed.  `PlainPairOf h p k v`:
`p` is a pair with car `k` and cdr `v`.
-/
namespace Pscm
open Spec

/-! Example heap: the alist `((a . 1) 7 (b . (9)) (a . 2))`: nodes 0-3 the list, 4-5 `(a . 1)`, 6-7 `(b 9)`, 8-9 `(a . 2)`. -/
def exSym (i : Nat) (c : UInt8) : Obj := ⟨i, .sym [c]⟩
def exAl : Heap where
  nodes := [⟨⟨100, .list 4⟩, some 1, false⟩, ⟨exNum 7, some 2, false⟩, ⟨⟨101, .list 6⟩, some 3, false⟩, ⟨⟨102, .list 8⟩, none, false⟩,
    ⟨exSym 200 97, some 5, false⟩, ⟨exNum 1, none, true⟩,
    ⟨exSym 201 98, some 7, false⟩, ⟨exNum 9, none, false⟩,
    ⟨exSym 202 97, some 9, false⟩, ⟨exNum 2, none, true⟩]
  vecs := []
  strs := []
  nextId := 5000
def exAlO : Obj := ⟨70, .list 0⟩
def exAlXs : List Obj := [⟨100, .list 4⟩, exNum 7, ⟨101, .list 6⟩, ⟨102, .list 8⟩]

theorem exAl_raw : RawList exAl exAlO [0, 1, 2, 3] exAlXs :=
  ⟨some 0, [(0, ⟨⟨100, .list 4⟩, some 1, false⟩), (1, ⟨exNum 7, some 2, false⟩), (2, ⟨⟨101, .list 6⟩, some 3, false⟩),
    (3, ⟨⟨102, .list 8⟩, none, false⟩)], rfl, ⟨rfl, rfl, rfl, rfl, rfl, rfl, rfl, rfl, rfl⟩, rfl, rfl⟩

theorem exAl_data : DataKeys exAl exAlXs := by
  intro e he a hv
  simp [exAlXs] at he
  rcases he with rfl | rfl | rfl | rfl
  · exact ⟨.sym [97], exSym 200 97, ⟨4, _, rfl, rfl, rfl⟩, .sym _ (by decide)⟩
  · cases hv
  · exact ⟨.sym [98], exSym 201 98, ⟨6, _, rfl, rfl, rfl⟩, .sym _ (by decide)⟩
  · exact ⟨.sym [97], exSym 202 97, ⟨8, _, rfl, rfl, rfl⟩, .sym _ (by decide)⟩

theorem exAl_key (i : Nat) : Denotes false exAl (exSym i 98).v (.sym [98]) := .sym _ (by decide)

theorem run_ok {α : Type} {f : M α} {h : Heap} {r : α} (e : (f h).1 = .ok r) : f h = (.ok r, (f h).2) := by
  rw [← e]

/-! ## C23 — the first matching entry -/

/-- C23 for `assq`: the first pair whose car is the same key, or `#f`; the heap is unchanged. -/
theorem c23_assq (h : Heap) (key al : Obj) (as : List Addr) (xs : List Obj) (fuel : Nat)
    (hl : RawList h al as xs) (hx : EntriesExist h xs) (hf : xs.length < fuel) :
    ∃ r, assq fuel key al h = (.ok r, h) ∧ FirstOrFalse (fun e => ∃ k, HasKey h e k ∧ SameKeyQ key k) xs r := by
  refine ⟨_, assG_raw (Ext.refl h) hl (assq_testOk hx) hf, find_first ?_⟩
  intro e _
  rw [matchE_iff]
  simp only [assqEq_iff]

example : RawList exAl exAlO [0, 1, 2, 3] exAlXs ∧ EntriesExist exAl exAlXs ∧
    assq 9 (exSym 1 98) exAlO exAl = (.ok ⟨101, .list 6⟩, exAl) := ⟨exAl_raw, exAl_data.exist, by decide⟩

/-- C23 for `assoc` (and `assv`, which is the same procedure on lists): the first pair whose car denotes the same
datum as the key, or `#f`.  Partial: keys made of proper undotted lists (see C22). -/
theorem c23_assoc_partial (F : FArith) (h : Heap) (key al : Obj) (kt : Tree) (as : List Addr) (xs : List Obj)
    (hl : RawList h al as xs) (hk : Denotes false h key.v kt) (hx : DataKeys h xs) :
    ∃ N, ∀ fuel, N ≤ fuel → ∃ r, assoc F fuel key al h = (.ok r, h) ∧ assv F fuel key al h = (.ok r, h) ∧
      FirstOrFalse (fun e => KeyDenotes h e kt) xs r := by
  obtain ⟨N, hN⟩ := assoc_testOk F hk hx hk
  refine ⟨N + xs.length + 1, fun fuel hf => ?_⟩
  obtain ⟨mt, h1, h2, -, -⟩ := hN fuel (by omega)
  have he := assG_raw (Ext.refl h) hl h1 (fuel := fuel) (by omega)
  refine ⟨_, he, ?_, find_first h2⟩
  rw [← he]
  obtain ⟨p, ns, hs, hp, hrest⟩ := hl
  unfold assv assG
  cases hv : al.v with
  | list a => rfl
  | nil => rfl
  | _ => rw [hv] at hs; cases hs

example : Denotes false exAl (exSym 1 98).v (.sym [98]) ∧ DataKeys exAl exAlXs ∧
    assoc exampleF' 9 (exSym 1 98) exAlO exAl = (.ok ⟨101, .list 6⟩, exAl) ∧
    assoc exampleF' 9 (exSym 1 99) exAlO exAl = (.ok Obj.f, exAl) := ⟨exAl_key 1, exAl_data, by decide, by decide⟩

/-! ## C24 — `assoc-set!` then lookup -/

/-- C24 for `assq-set!`/`assq`: the result is a new proper list, nothing existing is changed; looking up the key
gives a pair `(key . value)`; looking up a key that is not the same gives the very entry it gave before. -/
theorem c24_assq_set (h : Heap) (al key value : Obj) (as : List Addr) (xs : List Obj) (n fuel : Nat)
    (hl : RawList h al as xs) (hx : EntriesExist h xs) (hv : OrdinaryCdr h value n) (hf : xs.length + n + 1 < fuel) :
    ∃ r h' as' zs, assqSet fuel al key value h = (.ok r, h') ∧ Ext h h' ∧ ProperList h' r as' zs ∧
      (∃ p, assq fuel key r h' = (.ok p, h') ∧ PlainPairOf h' p key value) ∧
      (∀ key', ¬ SameKeyQ key' key → ∃ o, assq fuel key' al h = (.ok o, h) ∧ assq fuel key' r h' = (.ok o, h')) := by
  obtain ⟨r, h', as', zs, e1, ex, pl, hres⟩ := assSet_spec (key := key) (n0 := n) hv hl (assq_testOk (key := key) hx) (fuel := fuel) (by omega)
  have hraw : RawList h' r as' zs := by
    obtain ⟨p, ns, a, b, c, d, -⟩ := pl
    exact ⟨p, ns, a, b, c, d⟩
  obtain ⟨hzlen, hzx, -⟩ := set_facts ex hx hres
  refine ⟨r, h', as', zs, e1, ex, pl, ?_, ?_⟩
  · obtain ⟨p, hp1, hp2⟩ := (set_lookup (mt' := assqEq key) ex hx hres).1 (by simp [assqEq]) (fun _ _ hh => hh)
    refine ⟨p, ?_, hp2⟩
    have := assG_raw (Ext.refl h') hraw (assq_testOk (key := key) hzx) (fuel := fuel) (by omega)
    rw [hp1] at this
    exact this
  · intro key' hne
    have hk' : assqEq key' key = false := by
      rw [Bool.eq_false_iff, Ne, assqEq_iff]; exact hne
    have := (set_lookup (mt' := assqEq key') ex hx hres).2 hk' (by
      intro e he hm
      rw [Bool.eq_false_iff]
      intro hm'
      obtain ⟨k, hk1, hk2⟩ := matchE_iff.1 hm
      obtain ⟨k', hk1', hk2'⟩ := matchE_iff.1 hm'
      obtain rfl := hk1.det hk1'
      rw [assqEq_iff] at hk2 hk2'
      apply hne
      rcases hk2 with rfl | ⟨s, s1, s2⟩ | ⟨s, s1, s2⟩ | ⟨s, s1, s2⟩
      · exact hk2'
      all_goals
        rcases hk2' with rfl | ⟨t, t1, t2⟩ | ⟨t, t1, t2⟩ | ⟨t, t1, t2⟩
      all_goals simp_all [SameKeyQ])
    refine ⟨_, assG_raw (Ext.refl h) hl (assq_testOk (key := key') hx) (by omega), ?_⟩
    rw [← this]
    exact assG_raw (Ext.refl h') hraw (assq_testOk (key := key') hzx) (by omega)

example : OrdinaryCdr exAl (exNum 5) 0 ∧ ¬ SameKeyQ (exSym 1 98) (exSym 2 97) ∧ EntriesExist exAl exAlXs := by
  refine ⟨?_, ?_, exAl_data.exist⟩
  · intro a h; cases h
  · simp [SameKeyQ, exSym]

/-- C24 for `assoc-set!`/`assoc` (partial): keys made of proper undotted lists, and the value is obtained with
`(cdr (assoc key al))`; `assoc-ref` gives it too when it is neither a pair nor the empty list (otherwise see
`c24_counterexample`).  The result is a new proper list and nothing existing is changed; looking up another key
gives the very entry it gave before. -/
theorem c24_assoc_set_partial (F : FArith) (h : Heap) (al key value key' : Obj) (kt kt' : Tree) (as : List Addr)
    (xs : List Obj) (n : Nat) (hl : RawList h al as xs) (hx : DataKeys h xs) (hk : Denotes false h key.v kt)
    (hk' : Denotes false h key'.v kt') (hne : kt' ≠ kt) (hv : OrdinaryCdr h value n) :
    ∃ N, ∀ fuel, N ≤ fuel → ∃ r h' as' zs,
      assocSet F fuel al key value h = (.ok r, h') ∧ Ext h h' ∧ ProperList h' r as' zs ∧
      (∃ p, assoc F fuel key r h' = (.ok p, h') ∧ PlainPairOf h' p key value) ∧
      (∃ o, assoc F fuel key' al h = (.ok o, h) ∧ assoc F fuel key' r h' = (.ok o, h')) ∧
      (value.v.ty ≠ .list → value.v ≠ .nil → assocRef F fuel r key h' = (.ok value, h')) := by
  obtain ⟨N1, hN1⟩ := assoc_testOk F hk hx hk
  obtain ⟨N2, hN2⟩ := assoc_testOk F hk' hx hk
  refine ⟨N1 + N2 + xs.length + n + 2, fun fuel hf => ?_⟩
  obtain ⟨mt, t1, t2, t3, t4⟩ := hN1 fuel (by omega)
  obtain ⟨mt', u1, u2, u3, u4⟩ := hN2 fuel (by omega)
  obtain ⟨r, h', as', zs, e1, ex, pl, hres⟩ := assSet_spec (key := key) (n0 := n) hv hl t1 (fuel := fuel) (by omega)
  have hraw : RawList h' r as' zs := by
    obtain ⟨p, ns, a, b, c, d, -⟩ := pl
    exact ⟨p, ns, a, b, c, d⟩
  obtain ⟨hzlen, hzx, hall⟩ := set_facts ex hx.exist hres
  have hkeyT : mt key = true := t4.2 rfl
  have hkeyF : mt' key = false := by rw [Bool.eq_false_iff]; exact fun hh => hne (u4.1 hh)
  obtain ⟨p, hp1, hp2⟩ := (set_lookup (mt' := mt) ex hx.exist hres).1 hkeyT (fun _ _ hh => hh)
  have hassoc : assoc F fuel key r h' = (.ok p, h') := by
    have := assG_raw (Ext.refl h') hraw (set_testOk ex t1 t3 hall) (fuel := fuel) (by omega)
    rw [hp1] at this
    exact this
  refine ⟨r, h', as', zs, e1, ex, pl, ⟨p, hassoc, hp2⟩, ?_, ?_⟩
  · have := (set_lookup (mt' := mt') ex hx.exist hres).2 hkeyF (by
      intro e he hm
      rw [Bool.eq_false_iff]
      intro hm'
      obtain ⟨k, hk1, hk2⟩ := (t2 e he).1 hm
      obtain ⟨k', hk1', hk2'⟩ := (u2 e he).1 hm'
      obtain rfl := hk1.det hk1'
      exact hne (hk2'.det hk2))
    refine ⟨_, assG_raw (Ext.refl h) hl u1 (fuel := fuel) (by omega), ?_⟩
    rw [← this]
    exact assG_raw (Ext.refl h') hraw (set_testOk ex u1 u3 hall) (by omega)
  · intro hv1 hv2
    obtain ⟨a, m, k1, k2, k3, -, k4⟩ := hp2
    simp only [assocRef]
    rw [M.bind_ok hassoc]
    simp only [k1]
    rw [M.bind_ok (getNode_ok k2)]
    cases hmn : m.next with
    | none => rw [hmn] at k4; exact absurd k4 hv2
    | some b =>
      rw [hmn] at k4
      obtain ⟨q, hq, hqd⟩ := k4
      simp only
      rw [M.bind_ok (getNode_ok hq)]
      split at hqd
      · rw [← hqd.1]; rfl
      · rw [hqd] at hv1; exact absurd rfl hv1

example : RawList exAl exAlO [0, 1, 2, 3] exAlXs ∧ DataKeys exAl exAlXs ∧ Denotes false exAl (exSym 1 97).v (.sym [97]) ∧
    Denotes false exAl (exSym 1 98).v (.sym [98]) ∧ Tree.sym [98] ≠ .sym [97] ∧ OrdinaryCdr exAl (exNum 5) 0 :=
  ⟨exAl_raw, exAl_data, .sym _ (by decide), exAl_key 1, by simp, fun a h => by cases h⟩

/-- C24 is false for `assoc-ref`: a stored list comes back as its first element, a stored empty list as `#f`.
(Values: the list `(9)` at node 7, and `()`.) -/
theorem c24_counterexample :
    (∃ r h', assocSet exampleF' 20 exAlO (exSym 1 99) ⟨300, .list 7⟩ exAl = (.ok r, h') ∧
      assocRef exampleF' 20 r (exSym 1 99) h' = (.ok (exNum 9), h')) ∧
    (∃ r h', assocSet exampleF' 20 exAlO (exSym 1 99) Obj.nil exAl = (.ok r, h') ∧
      assocRef exampleF' 20 r (exSym 1 99) h' = (.ok Obj.f, h')) :=
  ⟨⟨⟨5001, .list 15⟩, _, run_ok (by decide +kernel), by decide +kernel⟩,
    ⟨⟨5001, .list 15⟩, _, run_ok (by decide +kernel), by decide +kernel⟩⟩

/-! ## C25 — `assoc-remove!` -/

/-- C25 (partial): keys made of proper undotted lists.  The result is a new proper list made of the elements without
the first entry for the key, nothing existing is changed; every other lookup gives the entry it gave before; and if the
key had at most one entry, it has none afterwards.  Without that last condition the key can still be found
(`c25_counterexample`). -/
theorem c25_remove_partial (F : FArith) (h : Heap) (al key key' : Obj) (kt kt' : Tree) (as : List Addr)
    (xs : List Obj) (hl : RawList h al as xs) (hx : DataKeys h xs) (hk : Denotes false h key.v kt)
    (hk' : Denotes false h key'.v kt') (hne : kt' ≠ kt) :
    ∃ N, ∀ fuel, N ≤ fuel → ∃ r h' as' zs,
      assocRemove F fuel al key h = (.ok r, h') ∧ Ext h h' ∧ ProperList h' r as' zs ∧
      ((∃ pre e post, xs = pre ++ e :: post ∧ KeyDenotes h e kt ∧ (∀ e' ∈ pre, ¬ KeyDenotes h e' kt) ∧ zs = pre ++ post) ∨
        ((∀ e ∈ xs, ¬ KeyDenotes h e kt) ∧ zs = xs)) ∧
      (∃ o, assoc F fuel key' al h = (.ok o, h) ∧ assoc F fuel key' r h' = (.ok o, h')) ∧
      ((∀ e ∈ zs, ¬ KeyDenotes h e kt) → assoc F fuel key r h' = (.ok Obj.f, h')) := by
  obtain ⟨N1, hN1⟩ := assoc_testOk F hk hx hk
  obtain ⟨N2, hN2⟩ := assoc_testOk F hk' hx hk
  refine ⟨N1 + N2 + xs.length + 2, fun fuel hf => ?_⟩
  obtain ⟨mt, t1, t2, t3, t4⟩ := hN1 fuel (by omega)
  obtain ⟨mt', u1, u2, u3, u4⟩ := hN2 fuel (by omega)
  have hmain : ∃ r h' as', assocRemove F fuel al key h = (.ok r, h') ∧ Ext h h' ∧
      ProperList h' r as' (dropFirst (matchE h mt) xs) := by
    obtain ⟨p, ns, hs, hp, -, hxx⟩ := hl
    have hlen : ns.length = xs.length := by rw [← hxx]; simp
    cases hv : al.v with
    | nil =>
      rw [hv] at hs; cases hs
      cases ns with
      | cons y ys => exact absurd hp.1 (by simp)
      | nil =>
        simp at hxx; subst hxx
        exact ⟨Obj.nil, h, [], by simp [assocRemove, hv], Ext.refl h, none, [], rfl, rfl, rfl, rfl, by simp⟩
    | list a =>
      rw [hv] at hs; cases hs
      obtain ⟨b, h1, e1, i1⟩ := removeLoop_spec (removed := false) (fuel := fuel) (BInv.empty h) hp
        (fun x hxm => t1 _ (by rw [← hxx]; exact List.mem_map.2 ⟨x, hxm, rfl⟩)) (by omega)
      obtain ⟨o, h2, as2, e2, x2, pl, -⟩ := i1.finish
      refine ⟨o, h2, as2, ?_, x2, by simpa [hxx] using pl⟩
      simp only [assocRemove, hv]
      rw [M.bind_ok e1, e2]
    | _ => rw [hv] at hs; cases hs
  obtain ⟨r, h', as', e1, ex, pl⟩ := hmain
  have hraw : RawList h' r as' (dropFirst (matchE h mt) xs) := by
    obtain ⟨p, ns, a, b, c, d, -⟩ := pl
    exact ⟨p, ns, a, b, c, d⟩
  have hlen := length_dropFirst (p := matchE h mt) xs
  refine ⟨r, h', as', _, e1, ex, pl, ?_, ?_, ?_⟩
  · clear hraw pl e1 hlen u1 u2 t1 hl hN1 hN2 hf hx
    have : ∀ {ys : List Obj}, (∀ e ∈ ys, (matchE h mt e = true ↔ KeyDenotes h e kt)) →
      ((∃ pre e post, ys = pre ++ e :: post ∧ KeyDenotes h e kt ∧ (∀ e' ∈ pre, ¬ KeyDenotes h e' kt) ∧
          dropFirst (matchE h mt) ys = pre ++ post) ∨
        ((∀ e ∈ ys, ¬ KeyDenotes h e kt) ∧ dropFirst (matchE h mt) ys = ys)) := by
      intro ys
      induction ys with
      | nil => intro _; exact .inr ⟨by simp, rfl⟩
      | cons y ys ih =>
        intro hy
        by_cases hm : matchE h mt y = true
        · exact .inl ⟨[], y, ys, rfl, (hy y (by simp)).1 hm, by simp, by simp [dropFirst, hm]⟩
        · have hny : ¬ KeyDenotes h y kt := fun hh => hm ((hy y (by simp)).2 hh)
          rcases ih (fun e he => hy e (by simp [he])) with ⟨pre, e, post, q1, q2, q3, q4⟩ | ⟨q1, q2⟩
          · refine .inl ⟨y :: pre, e, post, by simp [q1], q2, ?_, by simp [dropFirst, hm, q4]⟩
            intro z hz
            rcases List.mem_cons.1 hz with rfl | hz
            · exact hny
            · exact q3 z hz
          · refine .inr ⟨?_, by simp [dropFirst, hm, q2]⟩
            intro z hz
            rcases List.mem_cons.1 hz with rfl | hz
            · exact hny
            · exact q1 z hz
    exact this t2
  · have hfind : (dropFirst (matchE h mt) xs).find? (matchE h mt') = xs.find? (matchE h mt') := by
      refine find_dropFirst (fun e he hm => ?_)
      rw [Bool.eq_false_iff]
      intro hm'
      obtain ⟨k, hk1, hk2⟩ := (t2 e he).1 hm
      obtain ⟨k', hk1', hk2'⟩ := (u2 e he).1 hm'
      obtain rfl := hk1.det hk1'
      exact hne (hk2'.det hk2)
    refine ⟨_, assG_raw (Ext.refl h) hl u1 (fuel := fuel) (by omega), ?_⟩
    rw [← hfind]
    exact assG_raw ex hraw (fun e he => u1 e (mem_dropFirst he)) (by omega)
  · intro hnone
    have := assG_raw ex hraw (fun e he => t1 e (mem_dropFirst he)) (fuel := fuel) (by omega)
    have hn : (dropFirst (matchE h mt) xs).find? (matchE h mt) = none := by
      rw [List.find?_eq_none]
      intro e he hm
      exact hnone e he ((t2 e (mem_dropFirst he)).1 hm)
    rw [hn] at this
    exact this

example : RawList exAl exAlO [0, 1, 2, 3] exAlXs ∧ DataKeys exAl exAlXs ∧ Denotes false exAl (exSym 1 98).v (.sym [98]) ∧
    Denotes false exAl (exSym 1 97).v (.sym [97]) ∧ Tree.sym [97] ≠ .sym [98] ∧
    (assocRemove exampleF' 20 exAlO (exSym 1 98) exAl).1 = .ok ⟨5000, .list 10⟩ :=
  ⟨exAl_raw, exAl_data, exAl_key 1, .sym _ (by decide), by simp, by decide⟩

/-- C25 is false with duplicate keys: after `assoc-remove!` of `a` from `((a . 1) 7 (b 9) (a . 2))` the key `a` is still
found. -/
theorem c25_counterexample : ∃ r h', assocRemove exampleF' 20 exAlO (exSym 1 97) exAl = (.ok r, h') ∧
    assoc exampleF' 20 (exSym 1 97) r h' = (.ok ⟨102, .list 8⟩, h') :=
  ⟨⟨5000, .list 10⟩, _, run_ok (by decide +kernel), by decide +kernel⟩

end Pscm
