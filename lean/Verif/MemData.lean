import Verif.MemDataSpec
import Verif.MemCall
import Verif.ListProps3
import Verif.EqProps
/-! # Data in memory: lemmas -/
namespace Pscm
open Spec
namespace Mem
variable {h h' : Heap}

/-- Nodes and strings keep their contents. -/
structure Keeps (h h' : Heap) : Prop where
  nodes : ∀ {a : Addr} {n : Node}, h.nodes[a]? = some n → h'.nodes[a]? = some n
  strs : ∀ {a : Addr} {s : List UInt8}, h.strs[a]? = some s → h'.strs[a]? = some s

theorem keeps_ext (e : Ext h h') : Keeps h h' := ⟨fun ha => e.get ha, fun ha => by rw [e.strs]; exact ha⟩

theorem _root_.Pscm.Spec.Holds.keep (e : Keeps h h') {v : Val} {u : Ref.Val} (hv : Holds h v u) : Holds h' v u := by
  induction hv with
  | nil => exact .nil
  | bool b => exact .bool b
  | num n hn => exact .num n hn
  | chr c => exact .chr c
  | sym s hs hl => exact .sym s hs hl
  | str a s ha hs => exact .str a s (e.strs ha) hs
  | last ha hd hn _ ih => exact .last (e.nodes ha) hd hn ih
  | next ha hd hn _ _ ih1 ih2 => exact .next (e.nodes ha) hd hn ih1 ih2
  | dot ha hd hn hb hm hl h1 h2 _ _ ih1 ih2 => exact .dot (e.nodes ha) hd hn (e.nodes hb) hm hl h1 h2 ih1 ih2

theorem _root_.Pscm.Spec.Holds.mono (e : Ext h h') {v : Val} {u : Ref.Val} (hv : Holds h v u) : Holds h' v u := hv.keep (keeps_ext e)

theorem _root_.Pscm.Spec.HoldAll.mono (e : Ext h h') {os : List Obj} {us : List Ref.Val} (hv : HoldAll h os us) : HoldAll h' os us := by
  induction hv with
  | nil => exact .nil
  | cons ho _ ih => exact .cons (ho.mono e) ih

theorem _root_.Pscm.Spec.HoldAll.length {os : List Obj} {us : List Ref.Val} (hv : HoldAll h os us) : os.length = us.length := by
  induction hv with
  | nil => rfl
  | cons ho _ ih => simp [ih]

theorem _root_.Pscm.Spec.HoldAll.get {os : List Obj} {us : List Ref.Val} (hv : HoldAll h os us) : ∀ {i : Nat} {u : Ref.Val}, us[i]? = some u → ∃ o, os[i]? = some o ∧ Holds h o.v u := by
  induction hv with
  | nil => intro i u hu; simp at hu
  | cons ho _ ih =>
    intro i u hu
    match i with
    | 0 => simp at hu; subst hu; exact ⟨_, rfl, ho⟩
    | i + 1 => simpa using ih (by simpa using hu)

theorem _root_.Pscm.Spec.HoldAll.append {os os' : List Obj} {us us' : List Ref.Val} (hv : HoldAll h os us) (hv' : HoldAll h os' us') : HoldAll h (os ++ os') (us ++ us') := by
  induction hv with
  | nil => exact hv'
  | cons ho _ ih => exact .cons ho ih

theorem _root_.Pscm.Spec.HoldAll.reverse {os : List Obj} {us : List Ref.Val} (hv : HoldAll h os us) : HoldAll h os.reverse us.reverse := by
  induction hv with
  | nil => exact .nil
  | cons ho _ ih =>
    simp only [List.reverse_cons]
    exact ih.append (.cons ho .nil)

theorem _root_.Pscm.Spec.HoldAll.drop {os : List Obj} {us : List Ref.Val} (hv : HoldAll h os us) : ∀ k, HoldAll h (os.drop k) (us.drop k) := by
  induction hv with
  | nil => intro k; simp; exact .nil
  | cons ho hr ih =>
    intro k
    match k with
    | 0 => exact .cons ho hr
    | k + 1 => exact ih k

/-- The chain of nodes of a pair. -/
theorem path_of {v : Val} {u : Ref.Val} (hv : Holds h v u) : ∀ {a : Addr}, v = .list a → ∃ ns, Path h (some a) ns := by
  induction hv with
  | last ha hd hn _ _ => rintro _ ⟨⟩; exact ⟨[(_, _)], rfl, ha, hn⟩
  | next ha hd hn _ _ _ ih =>
    rintro _ ⟨⟩
    obtain ⟨ns, hp⟩ := ih rfl
    exact ⟨(_, _) :: ns, rfl, ha, by rw [hn]; exact hp⟩
  | dot ha hd hn hb _ hl _ _ _ _ _ _ => rintro _ ⟨⟩; exact ⟨[(_, _), (_, _)], rfl, ha, hn, hb, hl⟩
  | _ => rintro _ ⟨⟩

theorem elems_list {l : Ref.Val} : ∀ {us}, l.elems = some us → l = Ref.Val.list us := by
  induction l with
  | nil => intro us hu; cases hu; rfl
  | pair a d _ ih =>
    intro us hu
    simp only [Ref.Val.elems] at hu
    cases hd : d.elems with
    | none => rw [hd] at hu; cases hu
    | some ds => rw [hd] at hu; cases hu; simp only [Ref.Val.list]; rw [← ih hd]
  | _ => intro us hu; cases hu

theorem list_elems : ∀ us : List Ref.Val, (Ref.Val.list us).elems = some us
  | [] => rfl
  | u :: us => by simp [Ref.Val.list, Ref.Val.elems, list_elems us]

/-- A proper list in memory. -/
theorem chain_of {v : Val} {l : Ref.Val} (hv : Holds h v l) : ∀ {us}, l.elems = some us →
    ∃ p ns, start? v = some p ∧ Path h p ns ∧ HoldAll h (ns.map (·.2.data)) us ∧ ∀ x ∈ ns, x.2.dotted = false := by
  induction hv with
  | nil => intro us hu; cases hu; exact ⟨none, [], rfl, rfl, .nil, by simp⟩
  | last ha hd hn hu _ =>
    intro us he; cases he
    exact ⟨some _, [(_, _)], rfl, ⟨rfl, ha, hn⟩, .cons hu .nil, by simpa using hd⟩
  | @next a b n u w ha hd hn hu hw _ ih =>
    intro us he
    simp only [Ref.Val.elems] at he
    cases hw' : w.elems with
    | none => rw [hw'] at he; cases he
    | some ws =>
      rw [hw'] at he; cases he
      obtain ⟨p, ns, hp, hpath, hall, hnd⟩ := ih hw'
      cases hp
      refine ⟨some a, (a, n) :: ns, rfl, ⟨rfl, ha, by rw [hn]; exact hpath⟩, .cons hu hall, ?_⟩
      intro x hx
      rcases List.mem_cons.1 hx with rfl | hx
      · exact hd
      · exact hnd x hx
  | @dot a b n m u w ha hd hn hb hm hl h1 h2 hu hw _ _ =>
    intro us he
    simp only [Ref.Val.elems] at he
    clear hb
    generalize m.data.v = mv at hw h1 h2
    cases hw with
    | nil => exact absurd rfl h2
    | last => exact absurd rfl h1
    | next => exact absurd rfl h1
    | dot => exact absurd rfl h1
    | _ => cases he
  | _ => intro us he; cases he

theorem proper_of {o : Obj} {l : Ref.Val} {us : List Ref.Val} (hv : Holds h o.v l) (hu : l.elems = some us) : ∃ as xs, ProperList h o as xs ∧ HoldAll h xs us := by
  obtain ⟨p, ns, hp, hpath, hall, hnd⟩ := chain_of hv hu
  exact ⟨_, _, ⟨p, ns, hp, hpath, rfl, rfl, hnd⟩, hall⟩

theorem holds_chain : ∀ {ns : List (Addr × Node)} {us : List Ref.Val} {p : Option Addr}, Path h p ns → HoldAll h (ns.map (·.2.data)) us → (∀ x ∈ ns, x.2.dotted = false) →
    ∀ {v}, start? v = some p → Holds h v (Ref.Val.list us) := by
  intro ns
  induction ns with
  | nil =>
    intro us p hp hall _ v hv
    cases hall
    cases hp
    cases v <;> cases hv
    exact .nil
  | cons x ns ih =>
    obtain ⟨a, n⟩ := x
    intro us p hp hall hnd v hv
    obtain ⟨rfl, hna, hr⟩ := hp
    cases hall with
    | cons ho hall =>
      have hv' : v = .list a := by cases v <;> cases hv; rfl
      subst hv'
      cases hns : n.next with
      | none =>
        rw [hns] at hr
        cases ns with
        | cons y ys => exact absurd hr.1 (by simp)
        | nil =>
          cases hall
          exact .last hna (hnd (a, n) (by simp)) hns ho
      | some b =>
        rw [hns] at hr
        exact .next hna (hnd (a, n) (by simp)) hns ho (ih hr hall (fun x hx => hnd x (List.mem_cons_of_mem _ hx)) rfl)

theorem holds_proper {o : Obj} {as : List Addr} {xs : List Obj} {us : List Ref.Val} (hp : ProperList h o as xs) (hall : HoldAll h xs us) : Holds h o.v (Ref.Val.list us) := by
  obtain ⟨p, ns, hs, hpath, -, hx, hnd⟩ := hp
  exact holds_chain hpath (by rw [hx]; exact hall) hnd hs

/-! ## Pairs -/

theorem pair_cases {v : Val} {u w : Ref.Val} (hv : Holds h v (.pair u w)) : ∃ a n, v = .list a ∧ h.nodes[a]? = some n ∧ n.dotted = false ∧ Holds h n.data.v u := by
  cases hv with
  | last ha hd _ hu => exact ⟨_, _, rfl, ha, hd, hu⟩
  | next ha hd _ hu _ => exact ⟨_, _, rfl, ha, hd, hu⟩
  | dot ha hd _ _ _ _ _ _ hu _ => exact ⟨_, _, rfl, ha, hd, hu⟩

theorem not_list {v : Val} {u : Ref.Val} (hv : Holds h v u) (hu : ∀ x y, u ≠ .pair x y) : v.ty ≠ .list := by
  cases hv with
  | last => exact absurd rfl (hu _ _)
  | next => exact absurd rfl (hu _ _)
  | dot => exact absurd rfl (hu _ _)
  | _ => simp [Val.ty]

theorem car_holds {o : Obj} {u w : Ref.Val} (hv : Holds h o.v (.pair u w)) : ∃ r, car o h = (.ok r, h) ∧ Holds h r.v u := by
  obtain ⟨a, n, hav, hna, -, hu⟩ := pair_cases hv
  refine ⟨n.data, ?_, hu⟩
  simp only [car, hav]
  rw [M.bind_ok (getNode_ok hna)]; rfl

theorem cdr_holds {o : Obj} {u w : Ref.Val} (hv : Holds h o.v (.pair u w)) : ∃ r h', cdr o h = (.ok r, h') ∧ Holds h' r.v w ∧ Ext h h' := by
  cases hov : o.v with
  | list a =>
    rw [hov] at hv
    cases hv with
    | last ha hd hn hu =>
      refine ⟨Obj.nil, h, ?_, .nil, Ext.refl h⟩
      simp only [cdr, hov]
      rw [M.bind_ok (getNode_ok ha), hn]; rfl
    | @next _ b n _ _ ha hd hn hu hw =>
      have he := ext_newId h (h.nextId + 1) (by omega)
      refine ⟨⟨h.nextId, .list b⟩, _, ?_, hw.mono he, he⟩
      have hb : ∃ m, h.nodes[b]? = some m ∧ m.dotted = false := by
        cases hw with
        | last hb hd _ _ => exact ⟨_, hb, hd⟩
        | next hb hd _ _ _ => exact ⟨_, hb, hd⟩
        | dot hb hd _ _ _ _ _ _ _ _ => exact ⟨_, hb, hd⟩
      obtain ⟨m, hb, hm⟩ := hb
      simp only [cdr, hov]
      rw [M.bind_ok (getNode_ok ha), hn]
      simp only
      rw [M.bind_ok (getNode_ok hb), hm]; rfl
    | @dot _ b n m _ _ ha hd hn hb hm hl h1 h2 hu hw =>
      refine ⟨m.data, h, ?_, hw, Ext.refl h⟩
      simp only [cdr, hov]
      rw [M.bind_ok (getNode_ok ha), hn]
      simp only
      rw [M.bind_ok (getNode_ok hb), hm]; rfl
  | _ => rw [hov] at hv; cases hv

theorem car_error {o : Obj} {u : Ref.Val} (hv : Holds h o.v u) (hu : ∀ x y, u ≠ .pair x y) :
    car o h = (.err .typeError, h) ∧ cdr o h = (.err .typeError, h) ∧ cadr o h = (.err .typeError, h) := by
  have := not_list hv hu
  cases hov : o.v <;> rw [hov] at this <;> simp [Val.ty] at this <;> simp [car, cdr, cadr, hov]

theorem cons_holds {x d : Obj} {u w : Ref.Val} (hx : Holds h x.v u) (hd : Holds h d.v w) :
    ∃ N, ∀ fuel, N ≤ fuel → ∃ r h', cons fuel x d h = (.ok r, h') ∧ Holds h' r.v (.pair u w) ∧ Ext h h' := by
  cases hov : d.v with
  | list a =>
    obtain ⟨ns, hp⟩ := path_of hd hov
    refine ⟨ns.length, fun fuel hf => ⟨_, _, cons_list hov hp hf, ?_, ext_push2 h _ _ (by omega)⟩⟩
    have he := ext_push2 h [⟨x, some a, false⟩] (h.nextId + 1) (by omega)
    exact .next (n := ⟨x, some a, false⟩) (by simp) rfl rfl (hx.mono he) (by rw [← hov]; exact hd.mono he)
  | nil =>
    have he := ext_push2 h [⟨x, none, false⟩] (h.nextId + 1) (by omega)
    refine ⟨0, fun fuel _ => ⟨_, _, cons_nil hov, ?_, he⟩⟩
    rw [hov] at hd
    cases hd
    exact .last (n := ⟨x, none, false⟩) (by simp) rfl rfl (hx.mono he)
  | _ =>
    have he := ext_push2 h [⟨x, some (h.nodes.length + 1), false⟩, ⟨d, none, true⟩] (h.nextId + 1) (by omega)
    refine ⟨0, fun fuel _ => ⟨_, _, cons_atom (by simp [hov]) (by simp [hov]), ?_, he⟩⟩
    exact .dot (n := ⟨x, some (h.nodes.length + 1), false⟩) (m := ⟨d, none, true⟩) (by simp) rfl rfl (by simp) rfl rfl (by simp [hov, Val.ty]) (by simp [hov])
      (hx.mono he) (hd.mono he)

end Mem
end Pscm
