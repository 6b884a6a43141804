import Verif.MemData2
import Verif.ListProps2
/-! # Data in memory: the builtins -/
namespace Pscm
open Spec
namespace Mem
variable {h h' : Heap}

/-- The computation, with enough fuel, gives an object that holds `u` and changes nothing that was there. -/
def Works (h : Heap) (m : Nat → M Obj) (u : Ref.Val) : Prop :=
  ∃ N, ∀ fuel, N ≤ fuel → ∃ r h', m fuel h = (.ok r, h') ∧ Holds h' r.v u ∧ Ext h h'

/-- The computation, with enough fuel, is a Scheme error and changes nothing that was there. -/
def Fails (h : Heap) (m : Nat → M Obj) : Prop :=
  ∃ N, ∀ fuel, N ≤ fuel → ∃ e h', m fuel h = (.err e, h') ∧ Ext h h'

theorem works_bool {m : Nat → M Obj} {b : Bool} (N : Nat) (hm : ∀ fuel, N ≤ fuel → m fuel h = (.ok (Obj.ofBool b), h)) : Works h m (.bool b) :=
  ⟨N, fun fuel hf => ⟨_, h, hm fuel hf, by cases b <;> exact .bool _, Ext.refl h⟩⟩

/-! ## Searches -/

theorem mem_first {test : Nat → Heap → Obj → Res Bool} {t : Ref.Val → Option Bool}
    (ht : ∀ {o : Obj} {u : Ref.Val} {b : Bool}, Holds h o.v u → t u = some b → ∃ N, ∀ fuel, N ≤ fuel → test fuel h o = .ok b) :
    ∀ {ns : List (Addr × Node)} {us : List Ref.Val} {a : Addr} {v : Ref.Val}, Path h (some a) ns → HoldAll h (ns.map (·.2.data)) us → (∀ x ∈ ns, x.2.dotted = false) →
      Ref.firstTail t us = .val v → ∃ N, ∀ K, N ≤ K → ∀ fuel, N ≤ fuel → ∃ r h', memLoop (test K) fuel a h = (.ok r, h') ∧ Holds h' r.v v ∧ Ext h h' := by
  intro ns
  induction ns with
  | nil => intro us a v hp; cases hp
  | cons x ns ih =>
    obtain ⟨a, n⟩ := x
    intro us a' v hp hall hnd hv
    have hwhole := hall
    have hpath := hp
    obtain ⟨ha, hna, hr⟩ := hp
    cases ha
    cases hall with
    | @cons _ u _ us ho hall =>
      unfold Ref.firstTail at hv
      cases htu : t u with
      | none => rw [htu] at hv; cases hv
      | some b =>
        rw [htu] at hv
        obtain ⟨N, hN⟩ := ht ho htu
        cases b with
        | true =>
          cases hv
          refine ⟨N + 1, fun K hK fuel hf => ?_⟩
          obtain ⟨f, rfl⟩ : ∃ f, fuel = f + 1 := ⟨fuel - 1, by omega⟩
          have he := ext_newId h (h.nextId + 1) (by omega)
          refine ⟨⟨h.nextId, .list a⟩, _, ?_, (holds_chain hpath hwhole hnd rfl).mono he, he⟩
          unfold memLoop
          rw [M.bind_ok (getNode_ok hna), M.bind_ok (h' := h) (a := true) (by simp [hN K (by omega)])]
          rfl
        | false =>
          have hstep : ∀ K f, N ≤ K → memLoop (test K) (f + 1) a h = (match n.next with | none => (pure Obj.f : M Obj) | some b => memLoop (test K) f b) h := by
            intro K f hK
            conv => lhs; unfold memLoop
            rw [M.bind_ok (getNode_ok hna), M.bind_ok (h' := h) (a := false) (by simp [hN K hK])]
            rfl
          cases hnx : n.next with
          | none =>
            rw [hnx] at hr
            cases ns with
            | cons y ys => exact absurd hr.1 (by simp)
            | nil =>
              cases hall
              cases hv
              refine ⟨N + 1, fun K hK fuel hf => ?_⟩
              obtain ⟨f, rfl⟩ : ∃ f, fuel = f + 1 := ⟨fuel - 1, by omega⟩
              exact ⟨Obj.f, h, by rw [hstep K f (by omega), hnx]; rfl, .bool false, Ext.refl h⟩
          | some b =>
            rw [hnx] at hr
            obtain ⟨N', hN'⟩ := ih hr hall (fun x hx => hnd x (List.mem_cons_of_mem _ hx)) hv
            refine ⟨N + N' + 1, fun K hK fuel hf => ?_⟩
            obtain ⟨f, rfl⟩ : ∃ f, fuel = f + 1 := ⟨fuel - 1, by omega⟩
            rw [hstep K f (by omega), hnx]
            exact hN' K (by omega) f (by omega)

theorem mem_works {test : Nat → Heap → Obj → Res Bool} {t : Ref.Val → Option Bool}
    (ht : ∀ {o : Obj} {u : Ref.Val} {b : Bool}, Holds h o.v u → t u = some b → ∃ N, ∀ fuel, N ≤ fuel → test fuel h o = .ok b)
    {o : Obj} {l v : Ref.Val} {us : List Ref.Val} (hl : Holds h o.v l) (hu : l.elems = some us) (hv : Ref.firstTail t us = .val v) :
    Works h (fun fuel => memG (test fuel) fuel o) v := by
  obtain ⟨p, ns, hp, hpath, hall, hnd⟩ := chain_of hl hu
  cases hov : o.v with
  | nil =>
    rw [hov] at hp; cases hp
    cases ns with
    | cons y ys => exact absurd hpath.1 (by simp)
    | nil =>
      cases hall; cases hv
      exact works_bool 0 (fun fuel _ => by simp [memG, hov, Obj.ofBool])
  | list a =>
    rw [hov] at hp; cases hp
    obtain ⟨N, hN⟩ := mem_first ht hpath hall hnd hv
    exact ⟨N, fun fuel hf => by simp only [memG, hov]; exact hN fuel hf fuel hf⟩
  | _ => rw [hov] at hp; cases hp

theorem ass_first {test : Nat → Heap → Obj → Res Bool} {t : Ref.Val → Option Bool}
    (ht : ∀ {o : Obj} {u : Ref.Val} {b : Bool}, Holds h o.v u → t u = some b → ∃ N, ∀ fuel, N ≤ fuel → test fuel h o = .ok b) :
    ∀ {ns : List (Addr × Node)} {us : List Ref.Val} {p : Option Addr} {v : Ref.Val}, Path h p ns → HoldAll h (ns.map (·.2.data)) us →
      Ref.firstEntry t us = .val v → ∃ N, ∀ K, N ≤ K → ∀ fuel, N ≤ fuel → ∃ r, assLoop (test K) fuel p h = (.ok r, h) ∧ Holds h r.v v := by
  intro ns
  induction ns with
  | nil =>
    intro us p v hp hall hv
    cases hp; cases hall; cases hv
    refine ⟨1, fun K hK fuel hf => ?_⟩
    obtain ⟨f, rfl⟩ : ∃ f, fuel = f + 1 := ⟨fuel - 1, by omega⟩
    exact ⟨Obj.f, rfl, .bool false⟩
  | cons x ns ih =>
    obtain ⟨a, n⟩ := x
    intro us p v hp hall hv
    obtain ⟨ha, hna, hr⟩ := hp
    subst ha
    cases hall with
    | @cons _ u _ us ho hall =>
      cases u with
      | pair k e =>
        obtain ⟨pa, pn, hpv, hpn, -, hk⟩ := pair_cases ho
        unfold Ref.firstEntry at hv
        cases htu : t k with
        | none => rw [htu] at hv; cases hv
        | some b =>
          rw [htu] at hv
          obtain ⟨N, hN⟩ := ht hk htu
          have hentry : ∀ K, N ≤ K → entryTest (test K) n.data h = (.ok b, h) := by
            intro K hK
            simp only at hpv
            simp only [entryTest, hpv]
            rw [M.bind_ok (getNode_ok hpn)]
            simp [hN K hK]
          cases b with
          | true =>
            cases hv
            refine ⟨N + 1, fun K hK fuel hf => ?_⟩
            obtain ⟨f, rfl⟩ : ∃ f, fuel = f + 1 := ⟨fuel - 1, by omega⟩
            refine ⟨n.data, ?_, ho⟩
            unfold assLoop
            rw [M.bind_ok (getNode_ok hna), M.bind_ok (hentry K (by omega))]
            rfl
          | false =>
            obtain ⟨N', hN'⟩ := ih hr hall hv
            refine ⟨N + N' + 1, fun K hK fuel hf => ?_⟩
            obtain ⟨f, rfl⟩ : ∃ f, fuel = f + 1 := ⟨fuel - 1, by omega⟩
            unfold assLoop
            rw [M.bind_ok (getNode_ok hna), M.bind_ok (hentry K (by omega))]
            exact hN' K (by omega) f (by omega)
      | _ => cases hv

theorem ass_works {test : Nat → Heap → Obj → Res Bool} {t : Ref.Val → Option Bool}
    (ht : ∀ {o : Obj} {u : Ref.Val} {b : Bool}, Holds h o.v u → t u = some b → ∃ N, ∀ fuel, N ≤ fuel → test fuel h o = .ok b)
    {o : Obj} {l v : Ref.Val} {us : List Ref.Val} (hl : Holds h o.v l) (hu : l.elems = some us) (hv : Ref.firstEntry t us = .val v) :
    Works h (fun fuel => assG (test fuel) fuel o) v := by
  obtain ⟨p, ns, hp, hpath, hall, hnd⟩ := chain_of hl hu
  obtain ⟨N, hN⟩ := ass_first ht hpath hall hv
  cases hov : o.v with
  | nil =>
    rw [hov] at hp; cases hp
    cases ns with
    | cons y ys => exact absurd hpath.1 (by simp)
    | nil =>
      cases hall; cases hv
      exact works_bool 0 (fun fuel _ => by simp [assG, hov, Obj.ofBool])
  | list a =>
    rw [hov] at hp; cases hp
    refine ⟨N, fun fuel hf => ?_⟩
    obtain ⟨r, hr, hh⟩ := hN fuel hf fuel hf
    exact ⟨r, h, by simp only [assG, hov]; exact hr, hh, Ext.refl h⟩
  | _ => rw [hov] at hp; cases hp

theorem assv_works (F : FArith) {key : Obj} {t : Ref.Val → Option Bool}
    (ht : ∀ {o : Obj} {u : Ref.Val} {b : Bool}, Holds h o.v u → t u = some b → ∃ N, ∀ fuel, N ≤ fuel → legacyEq F h fuel key o = .ok b)
    {o : Obj} {l v : Ref.Val} {us : List Ref.Val} (hl : Holds h o.v l) (hu : l.elems = some us) (hv : Ref.firstEntry t us = .val v) :
    Works h (fun fuel => assv F fuel key o) v := by
  have := ass_works (test := fun fuel h k => legacyEq F h fuel key k) ht hl hu hv
  have hlist : o.v = .nil ∨ ∃ a, o.v = .list a := by
    obtain ⟨p, ns, hp, -⟩ := chain_of hl hu
    cases hov : o.v <;> rw [hov] at hp <;> cases hp
    · exact .inl rfl
    · exact .inr ⟨_, rfl⟩
  obtain ⟨N, hN⟩ := this
  refine ⟨N, fun fuel hf => ?_⟩
  obtain ⟨r, h', e, rest⟩ := hN fuel hf
  refine ⟨r, h', ?_, rest⟩
  rcases hlist with hn | ⟨a, ha⟩
  · simp only [assG, hn] at e; simp only [assv, hn]; exact e
  · simp only [assG, ha] at e; simp only [assv, ha]; exact e

/-! ## Lists -/

theorem list_works {os : List Obj} {us : List Ref.Val} (ho : HoldAll h os us) : Works h (fun _ => list os) (Ref.Val.list us) := by
  refine ⟨0, fun _ _ => ?_⟩
  obtain ⟨b, h1, e1, i1, -⟩ := BInv.pushAll (ys := os) (BInv.empty h)
  obtain ⟨r, h', as, e2, he, hp, -⟩ := i1.finish
  refine ⟨r, h', ?_, holds_proper hp (by simpa using ho.mono he), he⟩
  simp only [list]
  rw [M.bind_ok e1]
  exact e2

theorem length_works {o : Obj} {l : Ref.Val} {us : List Ref.Val} (hl : Holds h o.v l) (hu : l.elems = some us) (hlt : us.length < 2 ^ 31) :
    Works h (fun fuel => length fuel o) (.num us.length) := by
  obtain ⟨as, xs, hp, hall⟩ := proper_of hl hu
  have hlen := hall.length
  refine ⟨xs.length, fun fuel hf => ?_⟩
  obtain ⟨r, h', e, hr, he⟩ := c13_length_partial h o as xs fuel hp (by omega) hf
  exact ⟨r, h', e, by rw [hr, hlen]; exact .num _ ⟨by omega, by omega⟩, he⟩

theorem reverse_works {o : Obj} {l : Ref.Val} {us : List Ref.Val} (hl : Holds h o.v l) (hu : l.elems = some us) :
    Works h (fun fuel => reverse fuel o) (Ref.Val.list us.reverse) := by
  obtain ⟨as, xs, hp, hall⟩ := proper_of hl hu
  refine ⟨xs.length, fun fuel hf => ?_⟩
  obtain ⟨r, h', bs, e, hr, he, -⟩ := c14_reverse_partial h o as xs fuel hp hf
  exact ⟨r, h', e, holds_proper hr (hall.reverse.mono he), he⟩

theorem lists_of {os : List Obj} {ls : List Ref.Val} (ho : HoldAll h os ls) : ∀ {us}, Ref.allElems ls = some us →
    ∃ xss, ProperLists h os xss ∧ HoldAll h xss.flatten us := by
  induction ho with
  | nil => intro us hu; cases hu; exact ⟨[], trivial, .nil⟩
  | @cons o l os ls ho _ ih =>
    intro us hu
    simp only [Ref.allElems] at hu
    cases hl : l.elems with
    | none => rw [hl] at hu; cases hu
    | some vs =>
      cases hr : Ref.allElems ls with
      | none => rw [hl, hr] at hu; cases hu
      | some ws =>
        rw [hl, hr] at hu; cases hu
        obtain ⟨as, xs, hp, hall⟩ := proper_of ho hl
        obtain ⟨xss, h1, h2⟩ := ih hr
        exact ⟨xs :: xss, ⟨⟨as, hp⟩, h1⟩, by simpa using hall.append h2⟩

theorem append_works {os : List Obj} {ls us : List Ref.Val} (ho : HoldAll h os ls) (hu : Ref.allElems ls = some us) :
    Works h (fun fuel => append fuel os) (Ref.Val.list us) := by
  obtain ⟨xss, hp, hall⟩ := lists_of ho hu
  refine ⟨xss.flatten.length + 1, fun fuel hf => ?_⟩
  obtain ⟨r, h', as, e, hr, he⟩ := c15_append_partial h os xss fuel hp (fun xs hx => by
    have := (List.sublist_flatten_of_mem hx).length_le
    omega)
  exact ⟨r, h', e, holds_proper hr (hall.mono he), he⟩

theorem tail_works {o k : Obj} {l : Ref.Val} {us : List Ref.Val} {n : Int} (hl : Holds h o.v l) (hk : Holds h k.v (.num n)) (hu : l.elems = some us) (h0 : 0 ≤ n)
    (h1 : n ≤ us.length) : Works h (fun fuel => listTail fuel o k) (Ref.Val.list (us.drop n.toNat)) := by
  obtain ⟨p, ns, hs, hp, hall, hd⟩ := chain_of hl hu
  have hlen := hall.length
  have hkv : k.v = .num n ∧ Ref.Word n := by
    generalize k.v = kv at hk
    cases hk; exact ⟨rfl, by assumption⟩
  have hcast : castList o = .ok p := by
    cases hv : o.v <;> rw [hv] at hs <;> cases hs <;> simp [castList, hv]
  refine ⟨ns.length + 1, fun fuel hf => ?_⟩
  simp only [listTail, hcast, hkv.1]
  rw [toSize_nonneg h0 hkv.2.2]
  obtain ⟨q, e, hq⟩ := (listTailLoop_path (fuel := fuel) (k := n.toNat) hp (by omega)).1 (by simp at hlen; omega)
  rw [M.bind_ok e]
  have hall' : HoldAll h ((ns.drop n.toNat).map (·.2.data)) (us.drop n.toNat) := by
    rw [List.map_drop]; exact hall.drop _
  cases q with
  | none => exact ⟨Obj.nil, h, rfl, holds_chain hq hall' (fun x hx => hd x (List.mem_of_mem_drop hx)) rfl, Ext.refl h⟩
  | some a =>
    have he := ext_newId h (h.nextId + 1) (by omega)
    exact ⟨⟨h.nextId, .list a⟩, _, rfl, (holds_chain hq hall' (fun x hx => hd x (List.mem_of_mem_drop hx)) rfl).mono he, he⟩

theorem ref_works {o k : Obj} {l v : Ref.Val} {us : List Ref.Val} {n : Int} (hl : Holds h o.v l) (hk : Holds h k.v (.num n)) (hu : l.elems = some us) (h0 : 0 ≤ n)
    (h1 : us[n.toNat]? = some v) : Works h (fun fuel => listRef fuel o k) v := by
  obtain ⟨as, xs, hp, hall⟩ := proper_of hl hu
  have hkv : k.v = .num n := by
    generalize k.v = kv at hk
    cases hk; rfl
  obtain ⟨x, hx, hv⟩ := hall.get h1
  exact ⟨xs.length, fun fuel hf => ⟨x, h, (c16_list_ref h o k as xs n fuel hp hkv hf).1 x h0 hx, hv, Ext.refl h⟩⟩

theorem ref_fails {o k : Obj} {l : Ref.Val} {us : List Ref.Val} {n : Int} (hl : Holds h o.v l) (hk : Holds h k.v (.num n)) (hu : l.elems = some us)
    (h1 : n < 0 ∨ us[n.toNat]? = none) : Fails h (fun fuel => listRef fuel o k) := by
  obtain ⟨as, xs, hp, hall⟩ := proper_of hl hu
  have hlen := hall.length
  have hkv : k.v = .num n := by
    generalize k.v = kv at hk
    cases hk; rfl
  refine ⟨xs.length, fun fuel hf => ⟨_, h, (c16_list_ref h o k as xs n fuel hp hkv hf).2 ?_, Ext.refl h⟩⟩
  rcases h1 with h1 | h1
  · exact .inl h1
  · rw [List.getElem?_eq_none_iff] at h1
    by_cases h0 : n < 0
    · exact .inl h0
    · exact .inr (by omega)

theorem improper_of {v : Val} {l : Ref.Val} (hv : Holds h v l) : ∀ {a}, v = .list a → l.elems = none →
    ∃ ns t b, Path h (some a) (ns ++ [(b, ⟨t, none, true⟩)]) ∧ ns ≠ [] ∧ ∀ x ∈ ns, x.2.dotted = false := by
  induction hv with
  | last ha hd hn _ _ => rintro _ ⟨⟩ he; cases he
  | @next a b n u w ha hd hn hu hw _ ih =>
    rintro _ ⟨⟩ he
    have hw' : w.elems = none := by
      cases hw' : w.elems with
      | none => rfl
      | some ws => simp [Ref.Val.elems, hw'] at he
    obtain ⟨ns, t, c, hp, hne, hd'⟩ := ih rfl hw'
    refine ⟨(a, n) :: ns, t, c, ⟨rfl, ha, by rw [hn]; exact hp⟩, by simp, ?_⟩
    intro x hx
    rcases List.mem_cons.1 hx with rfl | hx
    · exact hd
    · exact hd' x hx
  | @dot a b n m u w ha hd hn hb hm hl h1 h2 hu hw _ _ =>
    rintro _ ⟨⟩ he
    refine ⟨[(a, n)], m.data, b, ⟨rfl, ha, hn, ?_, rfl⟩, by simp, by simpa using hd⟩
    rw [hb, ← hm, ← hl]
  | _ => rintro _ ⟨⟩

theorem isList_works {o : Obj} {l : Ref.Val} (hl : Holds h o.v l) (hu : ∀ us, l.elems = some us → us.length ≤ 10000) :
    Works h (fun fuel => isListP fuel o) (.bool l.elems.isSome) := by
  cases he : l.elems with
  | some us =>
    obtain ⟨as, xs, hp, hall⟩ := proper_of hl he
    have hlen := hall.length
    have := hu us he
    exact works_bool xs.length (fun fuel hf => (c19_list_p_partial h o fuel).2.1 as xs hp (by omega) hf)
  | none =>
    cases hov : o.v with
    | list a =>
      obtain ⟨ns, t, b, hp, hne, hd⟩ := improper_of hl hov he
      exact works_bool (ns.length + 1) (fun fuel hf => (c19_list_p_partial h o fuel).2.2.1 _ t ⟨some a, ns, b, by rw [hov]; rfl, hp, hne, rfl, hd⟩ (by simp; omega))
    | nil => rw [hov] at hl; cases hl; cases he
    | _ => exact works_bool 0 (fun fuel _ => (c19_list_p_partial h o fuel).2.2.2.2 (by simp [hov, Val.ty]) (by simp [hov]))

theorem acons_works {k v l : Obj} {uk uv ul : Ref.Val} (hk : Holds h k.v uk) (hv : Holds h v.v uv) (hl : Holds h l.v ul) :
    Works h (fun fuel => acons fuel k v l) (.pair (.pair uk uv) ul) := by
  obtain ⟨N, hN⟩ := cons_holds hk hv
  -- the second pair is built in the heap with the first one; its fuel does not depend on the first fuel
  obtain ⟨ns, hns⟩ : ∃ ns : List (Addr × Node), ∀ a, l.v = .list a → Path h (some a) ns := by
    cases hov : l.v with
    | list a =>
      obtain ⟨ns, hp⟩ := path_of hl hov
      exact ⟨ns, by rintro _ ⟨⟩; exact hp⟩
    | _ => exact ⟨[], by rintro _ ⟨⟩⟩
  refine ⟨N + ns.length, fun fuel hf => ?_⟩
  obtain ⟨p, h1, e1, hp1, he1⟩ := hN fuel (by omega)
  have hl1 := hl.mono he1
  simp only [acons]
  rw [M.bind_ok e1]
  cases hov : l.v with
  | nil =>
    rw [hov] at hl1; cases hl1
    obtain ⟨M, hM⟩ := list_works (.cons hp1 .nil : HoldAll h1 [p] [_])
    obtain ⟨r, h2, e2, hr, he2⟩ := hM M (Nat.le_refl _)
    exact ⟨r, h2, e2, hr, he1.trans he2⟩
  | list a =>
    have he2 := ext_push2 h1 [⟨p, some a, false⟩] (h1.nextId + 1) (by omega)
    refine ⟨_, _, cons_list hov ((hns a hov).mono he1) (by omega), ?_, he1.trans he2⟩
    exact .next (n := ⟨p, some a, false⟩) (by simp) rfl rfl (hp1.mono he2) (by rw [← hov]; exact hl1.mono he2)
  | _ =>
    have he2 := ext_push2 h1 [⟨p, some (h1.nodes.length + 1), false⟩, ⟨l, none, true⟩] (h1.nextId + 1) (by omega)
    refine ⟨_, _, cons_atom (by simp [hov]) (by simp [hov]), ?_, he1.trans he2⟩
    exact .dot (n := ⟨p, some (h1.nodes.length + 1), false⟩) (m := ⟨l, none, true⟩) (by simp) rfl rfl (by simp) rfl rfl (by simp [hov, Val.ty]) (by simp [hov])
      (hp1.mono he2) (hl1.mono he2)

end Mem
end Pscm
