import Verif.MemData3
import Verif.MemAlistSpec
import Verif.AlistProps
/-!
# C152: association lists in memory
-/
namespace Pscm
open Spec

namespace Mem
variable {h h' : Heap}

theorem key_same {k k' : Ref.Val} (hk : IsKey k) (hk' : IsKey k') : (Ref.sameDatum k k' == some true) = true ↔ k = k' := by
  obtain ⟨d, e1, p1⟩ := hk
  obtain ⟨d', e2, p2⟩ := hk'
  unfold Ref.sameDatum
  rw [e1, e2]
  simp [p1, p2, datum_inj e1 e2]

/-- The entries for the key, in memory. -/
theorem entry_match {key e : Obj} {k u : Ref.Val} (hk : Holds h key.v k) (hkk : IsKey k) (he : Holds h e.v u) (hu : ∀ k' w, u = .pair k' w → IsKey k') :
    KeyDenotes h e (treeOf k) ↔ isEntry k u = true := by
  constructor
  · rintro ⟨kk, ⟨a, n, hev, hn, rfl⟩, hd⟩
    rw [hev] at he
    have : ∃ k' w, u = .pair k' w := by cases he <;> exact ⟨_, _, rfl⟩
    obtain ⟨k', w, rfl⟩ := this
    obtain ⟨a', n', ha', hn', -, hk'⟩ := pair_cases he
    cases ha'
    rw [hn] at hn'; cases hn'
    obtain ⟨d', e2, p2⟩ := hu _ _ rfl
    have ht := hd.det (denotes_proper hk' e2 p2)
    exact (key_same hkk ⟨d', e2, p2⟩).2 ((treeOf_inj hk hk').1 ht)
  · intro hent
    cases u with
    | pair k' w =>
      have hk'k := hu _ _ rfl
      have := (key_same hkk hk'k).1 hent
      subst this
      obtain ⟨a, n, ha, hn, -, hkn⟩ := pair_cases he
      obtain ⟨d, e1, p1⟩ := hkk
      exact ⟨n.data, ⟨a, n, ha, hn, rfl⟩, denotes_proper hkn e1 p1⟩
    | _ => simp [isEntry] at hent

theorem data_keys {xs : List Obj} {us : List Ref.Val} (hall : HoldAll h xs us) : Keyed us → DataKeys h xs := by
  induction hall with
  | nil => intro _ e he; cases he
  | @cons o u os us ho _ ih =>
    intro hk e he a ha
    rcases List.mem_cons.1 he with rfl | he
    · rw [ha] at ho
      have : ∃ k' w, u = .pair k' w := by cases ho <;> exact ⟨_, _, rfl⟩
      obtain ⟨k', w, rfl⟩ := this
      obtain ⟨a', n', ha', hn', -, hk'⟩ := pair_cases ho
      cases ha'
      obtain ⟨d', e2, p2⟩ := hk k' w (by simp)
      exact ⟨treeOf k', n'.data, ⟨a, n', ha, hn', rfl⟩, denotes_proper hk' e2 p2⟩
    · exact ih (fun k w hm => hk k w (List.mem_cons_of_mem _ hm)) e he a ha

theorem drop_holds {mt : Obj → Bool} {key : Obj} {k : Ref.Val} (hk : Holds h key.v k) (hkk : IsKey k) {xs : List Obj} {us : List Ref.Val} (hall : HoldAll h xs us) :
    Keyed us → (∀ e ∈ xs, (matchE h mt e = true ↔ KeyDenotes h e (treeOf k))) → HoldAll h (dropFirst (matchE h mt) xs) (without k us) := by
  induction hall with
  | nil => intro _ _; exact .nil
  | @cons o u os us ho hos ih =>
    intro hkd hm
    have h1 := (hm o (by simp)).trans (entry_match hk hkk ho fun k' w e => hkd k' w (by simp [e]))
    unfold dropFirst without
    by_cases e : isEntry k u = true
    · rw [if_pos (h1.2 e), if_pos e]; exact hos
    · rw [if_neg fun x => e (h1.1 x), if_neg e]
      exact .cons ho (ih (fun k w hm => hkd k w (List.mem_cons_of_mem _ hm)) fun e he => hm e (List.mem_cons_of_mem _ he))

theorem plain_holds {z key v : Obj} {k w : Ref.Val} (hz : PlainPairOf h z key v) (hk : Holds h key.v k) (hv : Holds h v.v w) : Holds h z.v (.pair k w) := by
  obtain ⟨a, n, hzv, hn, hd, hnd, hnx⟩ := hz
  rw [hzv]
  cases hx : n.next with
  | none =>
    rw [hx] at hnx
    simp only at hnx
    rw [hnx] at hv
    cases hv
    exact .last hn hnd hx (by rw [hd]; exact hk)
  | some b =>
    rw [hx] at hnx
    obtain ⟨m, hm, hc⟩ := hnx
    cases hmd : m.dotted with
    | true =>
      rw [hmd, if_pos rfl] at hc
      obtain ⟨c1, c2, c3, c4⟩ := hc
      exact .dot hn hnd hx hm hmd c2 (by rw [c1]; exact c3) (by rw [c1]; exact c4) (by rw [hd]; exact hk) (by rw [c1]; exact hv)
    | false =>
      rw [hmd, if_neg (by decide)] at hc
      rw [hc] at hv
      exact .next hn hnd hx (by rw [hd]; exact hk) hv

theorem ordinary_of {v : Obj} {w : Ref.Val} (hv : Holds h v.v w) : ∃ n, OrdinaryCdr h v n := by
  cases e : v.v with
  | list a =>
    obtain ⟨ns, hp⟩ := path_of hv e
    refine ⟨ns.length, ?_⟩
    intro b hb
    rw [e] at hb; cases hb
    refine ⟨ns, hp, Nat.le_refl _, fun m hm => ?_⟩
    rw [e] at hv
    cases hv with
    | last h1 h2 _ _ => rw [h1] at hm; cases hm; exact h2
    | next h1 h2 _ _ _ => rw [h1] at hm; cases hm; exact h2
    | dot h1 h2 _ _ _ _ _ _ _ _ => rw [h1] at hm; cases hm; exact h2
  | _ => exact ⟨0, fun b hb => by rw [e] at hb; cases hb⟩

theorem any_match {mt : Obj → Bool} {key : Obj} {k : Ref.Val} (hk : Holds h key.v k) (hkk : IsKey k) {xs : List Obj} {us : List Ref.Val} (hall : HoldAll h xs us) :
    Keyed us → (∀ e ∈ xs, (matchE h mt e = true ↔ KeyDenotes h e (treeOf k))) → xs.any (matchE h mt) = us.any (isEntry k) := by
  induction hall with
  | nil => intro _ _; rfl
  | @cons o u os us ho hos ih =>
    intro hkd hm
    have h1 := (hm o (by simp)).trans (entry_match hk hkk ho fun k' w e => hkd k' w (by simp [e]))
    rw [List.any_cons, List.any_cons, Bool.eq_iff_iff.2 h1, ih (fun k w hm => hkd k w (List.mem_cons_of_mem _ hm)) fun e he => hm e (List.mem_cons_of_mem _ he)]

theorem set_holds {mt : Obj → Bool} {key value : Obj} {k w : Ref.Val} (hk : Holds h key.v k) (hkk : IsKey k) (hv : Holds h value.v w) (ex : Ext h h') {xs : List Obj} {us : List Ref.Val}
    (hall : HoldAll h xs us) : Keyed us → (∀ e ∈ xs, (matchE h mt e = true ↔ KeyDenotes h e (treeOf k))) → ∀ {zs}, Rel2 (SetRel h mt key value h') xs zs →
      HoldAll h' zs (us.map fun u => if isEntry k u then .pair k w else u) := by
  induction hall with
  | nil =>
    intro _ _ zs hr
    cases zs with
    | nil => exact .nil
    | cons z zs => exact absurd hr (by simp [Rel2])
  | @cons o u os us ho hos ih =>
    intro hkd hm zs hr
    have h1 := (hm o (by simp)).trans (entry_match hk hkk ho fun k' w e => hkd k' w (by simp [e]))
    cases zs with
    | nil => exact absurd hr (by simp [Rel2])
    | cons z zs =>
      obtain ⟨r1, r2⟩ := hr
      have hrest := ih (fun k w hm => hkd k w (List.mem_cons_of_mem _ hm)) (fun e he => hm e (List.mem_cons_of_mem _ he)) r2
      rw [List.map_cons]
      refine .cons ?_ hrest
      unfold SetRel at r1
      by_cases e : isEntry k u = true
      · rw [if_pos (h1.2 e)] at r1
        rw [if_pos e]
        exact plain_holds r1.1 (hk.mono ex) (hv.mono ex)
      · rw [if_neg fun x => e (h1.1 x)] at r1
        rw [if_neg e, r1]
        exact ho.mono ex

theorem match_same {key e : Obj} {k u : Ref.Val} (hk : Holds h key.v k) (hkn : k.isName = true) (he : Holds h e.v u) : matchE h (assqEq key) e = isSameEntry k u := by
  cases u with
  | pair k' w =>
    obtain ⟨a, n, ha, hn, -, hkn'⟩ := pair_cases he
    have hsome : ∃ r, Ref.sameKey k k' = some r := by
      cases k <;> simp [Ref.Val.isName] at hkn <;> cases k' <;> simp [Ref.sameKey, Ref.Val.key]
    obtain ⟨r, hr⟩ := hsome
    have h1 := assq_key hk hkn' hkn hr
    simp only [matchE, entryKey, ha, hn, Option.map_some, isSameEntry, hr, h1]
    cases r <;> rfl
  | _ =>
    have := not_list he (by intro x y; simp)
    cases hv : e.v with
    | list a => rw [hv] at this; exact absurd rfl this
    | _ => simp [matchE, entryKey, hv, isSameEntry]

theorem same_any {key : Obj} {k : Ref.Val} (hk : Holds h key.v k) (hkn : k.isName = true) {xs : List Obj} {us : List Ref.Val} (hall : HoldAll h xs us) :
    xs.any (matchE h (assqEq key)) = us.any (isSameEntry k) := by
  induction hall with
  | nil => rfl
  | cons ho _ ih => rw [List.any_cons, List.any_cons, match_same hk hkn ho, ih]

theorem same_set {key value : Obj} {k w : Ref.Val} (hk : Holds h key.v k) (hkn : k.isName = true) (hv : Holds h value.v w) (ex : Ext h h') {xs : List Obj} {us : List Ref.Val}
    (hall : HoldAll h xs us) : ∀ {zs}, Rel2 (SetRel h (assqEq key) key value h') xs zs → HoldAll h' zs (us.map fun u => if isSameEntry k u then .pair k w else u) := by
  induction hall with
  | nil =>
    intro zs hr
    cases zs with
    | nil => exact .nil
    | cons z zs => exact absurd hr (by simp [Rel2])
  | @cons o u os us ho hos ih =>
    intro zs hr
    cases zs with
    | nil => exact absurd hr (by simp [Rel2])
    | cons z zs =>
      obtain ⟨r1, r2⟩ := hr
      rw [List.map_cons]
      refine .cons ?_ (ih r2)
      unfold SetRel at r1
      rw [match_same hk hkn ho] at r1
      by_cases e : isSameEntry k u = true
      · rw [if_pos e] at r1
        rw [if_pos e]
        exact plain_holds r1.1 (hk.mono ex) (hv.mono ex)
      · rw [if_neg e] at r1
        rw [if_neg e, r1]
        exact ho.mono ex

theorem entries_exist {xs : List Obj} {us : List Ref.Val} (hall : HoldAll h xs us) : EntriesExist h xs := by
  induction hall with
  | nil => intro e he; cases he
  | cons ho _ ih =>
    intro e he a ha
    rcases List.mem_cons.1 he with rfl | he
    · rw [ha] at ho
      cases ho with
      | last hn _ _ _ => exact getElem?_lt hn
      | next hn _ _ _ _ => exact getElem?_lt hn
      | dot hn _ _ _ _ _ _ _ _ _ => exact getElem?_lt hn
    · exact ih e he a ha

end Mem
open Mem

variable (F : FArith)

/-- **C152** `(assoc-remove! al key)` gives a list without the first entry for the key; everything that was there is as before. -/
theorem c152_remove_partial {h : Heap} {al key : Obj} {l k : Ref.Val} {us : List Ref.Val} (hl : Holds h al.v l) (hu : l.elems = some us) (hkd : Keyed us) (hk : Holds h key.v k) (hkk : IsKey k) :
    ∃ N, ∀ fuel, N ≤ fuel → ∃ r h', assocRemove F fuel al key h = (.ok r, h') ∧ Holds h' r.v (Ref.Val.list (without k us)) ∧ ∀ o d, Holds h o d → Holds h' o d := by
  obtain ⟨as, xs, hp, hall⟩ := proper_of hl hu
  obtain ⟨d, e1, p1⟩ := id hkk
  have hkt := denotes_proper hk e1 p1
  obtain ⟨N1, hN1⟩ := assoc_testOk F hkt (data_keys hall hkd) hkt
  refine ⟨N1 + xs.length + 2, fun fuel hf => ?_⟩
  obtain ⟨mt, t1, t2, -, -⟩ := hN1 fuel (by omega)
  have hmain : ∃ r h' as', assocRemove F fuel al key h = (.ok r, h') ∧ Ext h h' ∧ ProperList h' r as' (dropFirst (matchE h mt) xs) := by
    obtain ⟨p, ns, hs, hp, -, hxx, -⟩ := hp
    have hlen : ns.length = xs.length := by rw [← hxx]; simp
    cases hv : al.v with
    | nil =>
      rw [hv] at hs; cases hs
      cases ns with
      | cons y ys => exact absurd hp.1 (by simp)
      | nil =>
        simp at hxx; subst hxx
        exact ⟨Obj.nil, h, [], by simp [assocRemove, hv], Ext.refl h, none, [], rfl, rfl, rfl, rfl, by simp⟩
    | list a =>
      rw [hv] at hs; cases hs
      obtain ⟨b, h1, e1, i1⟩ := removeLoop_spec (removed := false) (fuel := fuel) (BInv.empty h) hp
        (fun x hxm => t1 _ (by rw [← hxx]; exact List.mem_map.2 ⟨x, hxm, rfl⟩)) (by omega)
      obtain ⟨o, h2, as2, e2, x2, pl, -⟩ := i1.finish
      refine ⟨o, h2, as2, ?_, x2, by simpa [hxx] using pl⟩
      simp only [assocRemove, hv]
      rw [M.bind_ok e1, e2]
    | _ => rw [hv] at hs; cases hs
  obtain ⟨r, h', as', e, ex, pl⟩ := hmain
  exact ⟨r, h', e, holds_proper pl ((drop_holds hk hkk hall hkd t2).mono ex), fun o d ho => ho.mono ex⟩

/-- **C152** `(assoc-set! al key value)` gives a list with the value for the key; everything that was there, the old list included, is as before. -/
theorem c152_set_partial {h : Heap} {al key value : Obj} {l k w : Ref.Val} {us : List Ref.Val} (hl : Holds h al.v l) (hu : l.elems = some us) (hkd : Keyed us) (hk : Holds h key.v k)
    (hkk : IsKey k) (hv : Holds h value.v w) :
    ∃ N, ∀ fuel, N ≤ fuel → ∃ r h', assocSet F fuel al key value h = (.ok r, h') ∧ Holds h' r.v (Ref.Val.list (withEntry k w us)) ∧ ∀ o d, Holds h o d → Holds h' o d := by
  obtain ⟨as, xs, hp, hall⟩ := proper_of hl hu
  obtain ⟨d, e1, p1⟩ := id hkk
  have hkt := denotes_proper hk e1 p1
  obtain ⟨N1, hN1⟩ := assoc_testOk F hkt (data_keys hall hkd) hkt
  obtain ⟨n0, hord⟩ := ordinary_of hv
  have hraw : RawList h al as xs := by
    obtain ⟨p, ns, a, b, c, d, -⟩ := hp
    exact ⟨p, ns, a, b, c, d⟩
  refine ⟨N1 + xs.length + n0 + 2, fun fuel hf => ?_⟩
  obtain ⟨mt, t1, t2, -, -⟩ := hN1 fuel (by omega)
  obtain ⟨r, h', as', zs, e, ex, pl, hres⟩ := assSet_spec (key := key) (n0 := n0) hord hraw t1 (fuel := fuel) (by omega)
  refine ⟨r, h', e, ?_, fun o d ho => ho.mono ex⟩
  have hany := any_match hk hkk hall hkd t2
  unfold withEntry
  rcases hres with ⟨ha, hr⟩ | ⟨ha, p, hpp, -, rfl⟩
  · rw [if_pos (hany ▸ ha)]
    exact holds_proper pl (set_holds hk hkk hv ex hall hkd t2 hr)
  · rw [if_neg (by rw [← hany, ha]; decide)]
    exact holds_proper pl (.cons (plain_holds hpp (hk.mono ex) (hv.mono ex)) (hall.mono ex))

/-- **C152** `(assq-set! al key value)` with an integer or a symbol as key gives a list with the value for the key; everything that was there, the old list included, is as before. -/
theorem c152_assq_set_partial {h : Heap} {al key value : Obj} {l k w : Ref.Val} {us : List Ref.Val} (hl : Holds h al.v l) (hu : l.elems = some us) (hk : Holds h key.v k)
    (hkn : k.isName = true) (hv : Holds h value.v w) :
    ∃ N, ∀ fuel, N ≤ fuel → ∃ r h', assqSet fuel al key value h = (.ok r, h') ∧ Holds h' r.v (Ref.Val.list (withSameEntry k w us)) ∧ ∀ o d, Holds h o d → Holds h' o d := by
  obtain ⟨as, xs, hp, hall⟩ := proper_of hl hu
  obtain ⟨n0, hord⟩ := ordinary_of hv
  have hraw : RawList h al as xs := by
    obtain ⟨p, ns, a, b, c, d, -⟩ := hp
    exact ⟨p, ns, a, b, c, d⟩
  refine ⟨xs.length + n0 + 1, fun fuel hf => ?_⟩
  obtain ⟨r, h', as', zs, e, ex, pl, hres⟩ := assSet_spec (key := key) (n0 := n0) hord hraw (assq_testOk (key := key) (entries_exist hall)) (fuel := fuel) (by omega)
  refine ⟨r, h', e, ?_, fun o d ho => ho.mono ex⟩
  have hany := same_any hk hkn hall
  unfold withSameEntry
  rcases hres with ⟨ha, hr⟩ | ⟨ha, p, hpp, -, rfl⟩
  · rw [if_pos (hany ▸ ha)]
    exact holds_proper pl (same_set hk hkn hv ex hall hr)
  · rw [if_neg (by rw [← hany, ha]; decide)]
    exact holds_proper pl (.cons (plain_holds hpp (hk.mono ex) (hv.mono ex)) (hall.mono ex))

/-- **C152** `(assoc-ref al key)` finds the first entry for the key; it gives the rest of this entry unless it is a pair or the empty list (see `refOf`). -/
theorem c152_ref_partial {h : Heap} {al key : Obj} {l k e : Ref.Val} {us : List Ref.Val} (hl : Holds h al.v l) (hu : l.elems = some us) (hk : Holds h key.v k)
    (he : Ref.firstEntry (Ref.sameDatum k) us = .val e) :
    ∃ N, ∀ fuel, N ≤ fuel → ∃ r, assocRef F fuel al key h = (.ok r, h) ∧ Holds h r.v (match e with | .pair _ w => refOf w | _ => .bool false) := by
  obtain ⟨p, ns, hpv, hpath, hall, hnd⟩ := chain_of hl hu
  obtain ⟨N, hN⟩ := ass_first (test := fun fuel h y => legacyEq F h fuel key y) (fun hu hb => legacy_data F hk hu hb) hpath hall he
  have hass : ∀ fuel, N ≤ fuel → ∃ r, assoc F fuel key al h = (.ok r, h) ∧ Holds h r.v e := by
    intro fuel hf
    cases hov : al.v with
    | nil =>
      rw [hov] at hpv; cases hpv
      cases ns with
      | cons y ys => exact absurd hpath.1 (by simp)
      | nil =>
        cases hall; cases he
        exact ⟨Obj.f, by simp [assoc, assG, hov], .bool false⟩
    | list a =>
      rw [hov] at hpv; cases hpv
      obtain ⟨r, hr, hh⟩ := hN fuel hf fuel hf
      exact ⟨r, by simp only [assoc, assG, hov]; exact hr, hh⟩
    | _ => rw [hov] at hpv; cases hpv
  have hshape : e = .bool false ∨ ∃ a w, e = .pair a w := by
    clear hN hass hu hpath hall hnd hl
    induction us with
    | nil => cases he; exact .inl rfl
    | cons u us ih =>
      cases u with
      | pair a b =>
        unfold Ref.firstEntry at he
        cases ht : Ref.sameDatum k a with
        | none => rw [ht] at he; cases he
        | some q =>
          rw [ht] at he
          cases q with
          | true => cases he; exact .inr ⟨_, _, rfl⟩
          | false => exact ih he
      | _ => cases he
  refine ⟨N, fun fuel hf => ?_⟩
  obtain ⟨r, hr, hh⟩ := hass fuel hf
  simp only [assocRef]
  rw [M.bind_ok hr]
  rcases hshape with rfl | ⟨a, w, rfl⟩
  · have hrv : r.v = .bool false := by
      generalize r.v = rv at hh
      cases hh; rfl
    simp only [hrv]
    exact ⟨Obj.f, rfl, .bool false⟩
  · generalize hrv : r.v = rv at hh
    cases hh with
    | last hn hd hx hu =>
      simp only
      rw [M.bind_ok (getNode_ok hn)]
      simp only [hx]
      exact ⟨Obj.f, rfl, .bool false⟩
    | @next _ b n _ _ hn hd hx hu hw =>
      have hw0 := hw
      simp only
      rw [M.bind_ok (getNode_ok hn)]
      simp only [hx]
      cases hw with
      | last hm _ _ h1 => rw [M.bind_ok (getNode_ok hm)]; exact ⟨_, rfl, h1⟩
      | next hm _ _ h1 _ => rw [M.bind_ok (getNode_ok hm)]; exact ⟨_, rfl, h1⟩
      | dot hm _ _ _ _ _ _ _ h1 _ => rw [M.bind_ok (getNode_ok hm)]; exact ⟨_, rfl, h1⟩
    | @dot _ _ _ m _ _ hn hd hx hm hf hnn h1 h2 hu hw =>
      simp only
      rw [M.bind_ok (getNode_ok hn)]
      simp only [hx]
      rw [M.bind_ok (getNode_ok hm)]
      refine ⟨_, rfl, ?_⟩
      have : refOf w = w := by
        clear hm hf hnn
        generalize m.data.v = mv at hw h1 h2
        cases hw with
        | nil => exact absurd rfl h2
        | last => exact absurd rfl h1
        | next => exact absurd rfl h1
        | dot => exact absurd rfl h1
        | _ => rfl
      rw [this]; exact hw

/-- **C152** `(list-head l n)` gives the first `n` elements, and is an error if there are fewer. -/
theorem c152_list_head_partial {h : Heap} {o kobj : Obj} {l : Ref.Val} {us : List Ref.Val} {n : Int} (hl : Holds h o.v l) (hu : l.elems = some us) (hk : Holds h kobj.v (.num n))
    (hlen : us.length < 2 ^ 63) :
    ∃ N, ∀ fuel, N ≤ fuel →
      ((0 ≤ n ∧ n ≤ us.length) → ∃ r h', listHead fuel o kobj h = (.ok r, h') ∧ Holds h' r.v (Ref.Val.list (us.take n.toNat)) ∧ ∀ o d, Holds h o d → Holds h' o d) ∧
      ((n < 0 ∨ (us.length : Int) < n) → ∃ h', listHead fuel o kobj h = (.err .evalError, h') ∧ ∀ o d, Holds h o d → Holds h' o d) := by
  obtain ⟨as, xs, hp, hall⟩ := proper_of hl hu
  have hxl := hall.length
  obtain ⟨kv, hw⟩ : kobj.v = .num n ∧ Ref.Word n := by
    generalize kobj.v = v at hk
    cases hk with | num _ hw => exact ⟨rfl, hw⟩
  refine ⟨xs.length + 1, fun fuel hf => ?_⟩
  have hi : InI64 n := by simpa [InI64, Ref.Word] using hw
  obtain ⟨h1, h2⟩ := c16_list_head h o kobj as xs n fuel hp kv hi (by omega) (by omega)
  refine ⟨fun hn => ?_, fun hn => ?_⟩
  · obtain ⟨r, h', bs, e, ex, pl, -⟩ := h1 (by omega)
    refine ⟨r, h', e, holds_proper pl ?_, fun o d ho => ho.mono ex⟩
    have htake : ∀ {xs : List Obj} {us : List Ref.Val}, HoldAll h xs us → ∀ m, HoldAll h (xs.take m) (us.take m) := by
      intro xs us hall
      induction hall with
      | nil => intro m; simp; exact .nil
      | cons ho _ ih => intro m; cases m with
        | zero => simp; exact .nil
        | succ m => simp only [List.take_succ_cons]; exact .cons ho (ih m)
    exact (htake hall _).mono ex
  · obtain ⟨h', e, ex⟩ := h2 (by omega)
    exact ⟨h', e, fun o d ho => ho.mono ex⟩

/-- A heap with the association list `((a . 1) (b . 2))`, the key `b` and the list `(9)`. -/
def Mem.alistHeap : Heap :=
  { nodes := [⟨⟨0, .list 2⟩, some 1, false⟩, ⟨⟨1, .list 4⟩, none, false⟩, ⟨⟨2, .sym [97]⟩, some 3, false⟩, ⟨⟨3, .num 1⟩, none, true⟩, ⟨⟨4, .sym [98]⟩, some 5, false⟩,
      ⟨⟨5, .num 2⟩, none, true⟩, ⟨⟨6, .num 9⟩, none, false⟩]
    vecs := [], strs := [], nextId := 7 }

/-- The hypotheses are met, and the specification of `(assoc-set! al 'b '(9))` and of `(assoc-remove! al 'b)`. -/
example : Holds Mem.alistHeap (.list 0) (.pair (.pair (.sym "a") (.num 1)) (.pair (.pair (.sym "b") (.num 2)) .nil)) ∧ Holds Mem.alistHeap (.sym [98]) (.sym "b") ∧
    Holds Mem.alistHeap (.list 6) (.pair (.num 9) .nil) ∧ IsKey (.sym "b") ∧ Keyed [.pair (.sym "a") (.num 1), .pair (.sym "b") (.num 2)] :=
  ⟨.next (n := ⟨⟨0, .list 2⟩, some 1, false⟩) rfl rfl rfl
      (.dot (n := ⟨⟨2, .sym [97]⟩, some 3, false⟩) (m := ⟨⟨3, .num 1⟩, none, true⟩) rfl rfl rfl rfl rfl rfl (by decide) (by decide) (.sym [97] (by decide) (by decide)) (.num 1 (by decide)))
      (.last (n := ⟨⟨1, .list 4⟩, none, false⟩) rfl rfl rfl
        (.dot (n := ⟨⟨4, .sym [98]⟩, some 5, false⟩) (m := ⟨⟨5, .num 2⟩, none, true⟩) rfl rfl rfl rfl rfl rfl (by decide) (by decide) (.sym [98] (by decide) (by decide)) (.num 2 (by decide)))),
    .sym [98] (by decide) (by decide), .last (n := ⟨⟨6, .num 9⟩, none, false⟩) rfl rfl rfl (.num 9 (by decide)), ⟨_, rfl, rfl⟩,
    fun k w hm => by simp at hm; rcases hm with ⟨rfl, -⟩ | ⟨rfl, -⟩ <;> exact ⟨_, rfl, rfl⟩⟩

example : withSameEntry (.sym "c") (.num 3) [.pair (.sym "a") (.num 1)] = [.pair (.sym "c") (.num 3), .pair (.sym "a") (.num 1)] ∧ (Ref.Val.sym "c").isName = true := ⟨rfl, rfl⟩

example : withEntry (.sym "b") (.pair (.num 9) .nil) [.pair (.sym "a") (.num 1), .pair (.sym "b") (.num 2)] = [.pair (.sym "a") (.num 1), .pair (.sym "b") (.pair (.num 9) .nil)] ∧
    without (.sym "b") [.pair (.sym "a") (.num 1), .pair (.sym "b") (.num 2)] = [.pair (.sym "a") (.num 1)] ∧
    Ref.firstEntry (Ref.sameDatum (.sym "b")) [.pair (.sym "a") (.num 1), .pair (.sym "b") (.num 2)] = .val (.pair (.sym "b") (.num 2)) := ⟨rfl, rfl, rfl⟩

end Pscm
