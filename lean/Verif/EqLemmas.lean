import Verif.EqSpec
/-! # Lemmas for the equality predicates -/
namespace Pscm
open Spec

theorem cstr_eq_self {s : List UInt8} (h : (0 : UInt8) ∉ s) : cstr s = s := by
  induction s with
  | nil => rfl
  | cons x xs ih =>
    have : x ≠ 0 := fun e => h (by simp [e])
    have ih := ih (fun hm => h (by simp [hm]))
    unfold cstr at ih ⊢
    simp [this, ih]

theorem strncmpEq_iff : ∀ {s t : List UInt8}, s.length = t.length → (0 : UInt8) ∉ s →
    (strncmpEq s.length s t = true ↔ s = t)
  | [], [], _, _ => by simp [strncmpEq]
  | a :: as, b :: bs, hl, h0 => by
    have ha : a ≠ 0 := fun e => h0 (by simp [e])
    have ih := strncmpEq_iff (s := as) (t := bs) (by simpa using hl) (fun hm => h0 (by simp [hm]))
    by_cases hab : a = b
    · subst hab; simp [strncmpEq, ha, ih]
    · simp [strncmpEq, hab]

/-- The type tag of a tree. -/
def Spec.Tree.ty : Tree → Ty
  | .nil => .nil
  | .int _ => .num
  | .bool _ => .bool
  | .chr _ => .chr
  | .sym _ => .sym
  | .str _ => .str
  | .cons .. => .list
  | .vec _ => .vector

theorem Spec.Denotes.ty {d h v t} (hd : Denotes d h v t) : v.ty = t.ty := by
  cases hd <;> rfl

theorem Spec.Tree.no_mix (t u : Tree) : numFloatMix t.ty u.ty = false := by
  cases t <;> cases u <;> rfl

mutual
theorem Spec.Denotes.det {d d' h v t u} (h1 : Denotes d h v t) (h2 : Denotes d' h v u) : t = u := by
  cases h1 with
  | nil => cases h2; rfl
  | int => cases h2; rfl
  | bool => cases h2; rfl
  | chr => cases h2; rfl
  | sym => cases h2; rfl
  | str a s hs =>
    cases h2 with
    | str _ s' hs' => rw [hs] at hs'; cases hs'; rfl
  | pairLast a n t hn hnx ht =>
    cases h2 with
    | pairLast _ n' t' hn' hnx' ht' =>
      rw [hn] at hn'; cases hn'; rw [Denotes.det ht ht']
    | pairNext _ b n' m t' u' hn' hnx' => rw [hn] at hn'; cases hn'; rw [hnx] at hnx'; cases hnx'
    | pairDot _ b n' m t' u' _ hn' hnx' => rw [hn] at hn'; cases hn'; rw [hnx] at hnx'; cases hnx'
  | pairNext a b n m t u hn hnx hm hmd ht hu =>
    cases h2 with
    | pairLast _ n' t' hn' hnx' ht' => rw [hn] at hn'; cases hn'; rw [hnx] at hnx'; cases hnx'
    | pairNext _ b' n' m' t' u' hn' hnx' hm' hmd' ht' hu' =>
      rw [hn] at hn'; cases hn'; rw [hnx] at hnx'; cases hnx'
      rw [Denotes.det ht ht', Denotes.det hu hu']
    | pairDot _ b' n' m' t' u' _ hn' hnx' hm' hmd' =>
      rw [hn] at hn'; cases hn'; rw [hnx] at hnx'; cases hnx'
      rw [hm] at hm'; cases hm'; rw [hmd] at hmd'; cases hmd'
  | pairDot a b n m t u _ hn hnx hm hmd ht hu =>
    cases h2 with
    | pairLast _ n' t' hn' hnx' ht' => rw [hn] at hn'; cases hn'; rw [hnx] at hnx'; cases hnx'
    | pairNext _ b' n' m' t' u' hn' hnx' hm' hmd' ht' hu' =>
      rw [hn] at hn'; cases hn'; rw [hnx] at hnx'; cases hnx'
      rw [hm] at hm'; cases hm'; rw [hmd] at hmd'; cases hmd'
    | pairDot _ b' n' m' t' u' _ hn' hnx' hm' hmd' ht' hu' =>
      rw [hn] at hn'; cases hn'; rw [hnx] at hnx'; cases hnx'
      rw [hm] at hm'; cases hm'
      rw [Denotes.det ht ht', Denotes.det hu hu']
  | vec a xs ts hx hs =>
    cases h2 with
    | vec _ xs' ts' hx' hs' => rw [hx] at hx'; cases hx'; rw [DenotesAll.det hs hs']
theorem Spec.DenotesAll.det {d d' h v t u} (h1 : DenotesAll d h v t) (h2 : DenotesAll d' h v u) : t = u := by
  cases h1 with
  | nil => cases h2; rfl
  | cons x xs t ts hx hs =>
    cases h2 with
    | cons _ _ t' ts' hx' hs' => rw [Denotes.det hx hx', DenotesAll.det hs hs']
end

theorem Spec.DenotesAll.length {d h} : ∀ {xs ts}, DenotesAll d h xs ts → xs.length = ts.length
  | [], _, .nil => rfl
  | _ :: _, _, .cons _ _ _ _ _ hs => by simp [Spec.DenotesAll.length hs]

mutual
theorem Spec.Denotes.weaken {d h v t} (h1 : Denotes d h v t) : Denotes true h v t := by
  cases h1 with
  | nil => exact .nil
  | int => exact .int _
  | bool => exact .bool _
  | chr => exact .chr _
  | sym s h0 => exact .sym s h0
  | str a s hs h0 => exact .str a s hs h0
  | pairLast a n t hn hnx ht => exact .pairLast a n t hn hnx (Denotes.weaken ht)
  | pairNext a b n m t u hn hnx hm hmd ht hu =>
    exact .pairNext a b n m t u hn hnx hm hmd (Denotes.weaken ht) (Denotes.weaken hu)
  | pairDot a b n m t u _ hn hnx hm hmd ht hu =>
    exact .pairDot a b n m t u rfl hn hnx hm hmd (Denotes.weaken ht) (Denotes.weaken hu)
  | vec a xs ts hx hs => exact .vec a xs ts hx (DenotesAll.weaken hs)
theorem Spec.DenotesAll.weaken {d h v t} (h1 : DenotesAll d h v t) : DenotesAll true h v t := by
  cases h1 with
  | nil => exact .nil
  | cons x xs t ts hx hs => exact .cons x xs t ts (Denotes.weaken hx) (DenotesAll.weaken hs)
end

/-- The computation settles, for all large fuel, on a boolean that decides `P`. -/
def Settles (f : Nat → Res Bool) (P : Prop) : Prop :=
  ∃ N b, (b = true ↔ P) ∧ ∀ fuel, N ≤ fuel → f fuel = .ok b

theorem Settles.const {P : Prop} {f : Nat → Res Bool} (b : Bool) (hb : b = true ↔ P)
    (hf : ∀ n, f (n + 1) = .ok b) : Settles f P :=
  ⟨1, b, hb, fun fuel h => by obtain ⟨k, rfl⟩ := Nat.exists_eq_add_of_le' h; exact hf k⟩

theorem Settles.step {P : Prop} {f g : Nat → Res Bool} (hg : Settles g P) (hf : ∀ n, f (n + 1) = g n) : Settles f P := by
  obtain ⟨N, b, hb, hN⟩ := hg
  refine ⟨N + 1, b, hb, fun fuel h => ?_⟩
  obtain ⟨k, rfl⟩ := Nat.exists_eq_add_of_le' (Nat.le_trans (Nat.le_add_left 1 N) h)
  rw [hf, hN k (by omega)]

theorem Settles.congr {P Q : Prop} {f : Nat → Res Bool} (h : Settles f P) (e : P ↔ Q) : Settles f Q := by
  obtain ⟨N, b, hb, hN⟩ := h
  exact ⟨N, b, hb.trans e, hN⟩

/-- First `f`, then, if that is true, `g`. -/
theorem Settles.and {P Q : Prop} {f g k : Nat → Res Bool} (hf : Settles f P) (hg : Settles g Q)
    (hk : ∀ n, k (n + 1) = (do let e ← f n; if !e then pure false else g n)) : Settles k (P ∧ Q) := by
  obtain ⟨N, b, hb, hN⟩ := hf
  obtain ⟨M, c, hc, hM⟩ := hg
  refine ⟨max N M + 1, b && c, by simp [hb, hc], fun fuel h => ?_⟩
  obtain ⟨j, rfl⟩ := Nat.exists_eq_add_of_le' (Nat.le_trans (Nat.le_add_left 1 _) h)
  rw [hk, hN j (by omega), Res.bind_ok, hM j (by omega)]
  cases b <;> rfl

section
variable (F : FArith)

/-- The atoms: common part of `equal?` and the legacy comparison. -/
theorem symEq_sym {h s t} (hs : (0 : UInt8) ∉ s) (ht : (0 : UInt8) ∉ t) :
    symEq h (.sym s) (.sym t) = .ok (decide (s = t)) := by
  simp [symEq, cstr_eq_self hs, cstr_eq_self ht]

theorem symEq_str {h a b s t} (ha : h.strs[a]? = some s) (hb : h.strs[b]? = some t) (hs : (0 : UInt8) ∉ s) :
    symEq h (.str a) (.str b) = .ok (decide (s = t)) := by
  simp only [symEq, ha, hb]
  by_cases hl : s.length = t.length
  · have := strncmpEq_iff hl hs
    by_cases hst : s = t
    · rw [if_neg (by simp [hl]), this.2 hst]; simp [hst]
    · rw [if_neg (by simp [hl]), Bool.eq_false_iff.2 (fun hh => hst (this.1 hh))]; simp [hst]
  · rw [if_pos hl]
    have : s ≠ t := fun e => hl (by rw [e])
    simp [this]

theorem numberEq_int (x y : Int) : numberEq F (.num x) (.num y) = .ok (decide (x = y)) := by
  simp [numberEq, Val.toNumV, needsFloat, NumV.isFloat, binInt]

theorem node?_ok {h : Heap} {a n} (hn : h.nodes[a]? = some n) : node? h a = .ok n := by simp [node?, hn]

theorem vectorEqual_settles {h : Heap} (P : Tree → Prop)
    (hP : ∀ t, P t → ∀ (a b : Obj) u, Denotes true h a.v t → Denotes true h b.v u →
      Settles (fun f => equalRec F h f a b) (t = u)) :
    ∀ (ts : List Tree), (∀ t ∈ ts, P t) → ∀ xs ys us, DenotesAll true h xs ts → DenotesAll true h ys us →
      ts.length = us.length → Settles (fun f => vectorEqual F h f xs ys) (ts = us)
  | [], _, _, _, us, .nil, hy, hl => by
    cases hy with
    | nil => exact Settles.const true (by simp) (fun n => by simp [vectorEqual])
    | cons => simp at hl
  | t :: ts, hp, _, _, us, .cons x xs _ _ hx hxs, hy, hl => by
    cases hy with
    | nil => simp at hl
    | cons y ys u us hy hys =>
      have h1 := hP t (hp t (by simp)) x y u hx hy
      have h2 := vectorEqual_settles P hP ts (fun s hs => hp s (by simp [hs])) xs ys us hxs hys (by simpa using hl)
      refine (Settles.and h1 h2 (fun n => ?_)).congr (by simp)
      simp [vectorEqual]

/-- The cdr of a pair, as `_list_equal` sees it. -/
theorem cdr_cases {h : Heap} {x : Addr} {t : Tree} (hx : Denotes true h (.list x) t) :
    ∃ n c d, t = .cons c d ∧ h.nodes[x]? = some n ∧ Denotes true h n.data.v c ∧
      ((n.next = none ∧ d = .nil) ∨
       (∃ b m, n.next = some b ∧ h.nodes[b]? = some m ∧ m.dotted = false ∧ Denotes true h (.list b) d) ∨
       (∃ b m, n.next = some b ∧ h.nodes[b]? = some m ∧ m.dotted = true ∧ Denotes true h m.data.v d)) := by
  cases hx with
  | pairLast a n t hn hnx ht => exact ⟨n, t, .nil, rfl, hn, ht, .inl ⟨hnx, rfl⟩⟩
  | pairNext a b n m t u hn hnx hm hmd ht hu =>
    exact ⟨n, t, u, rfl, hn, ht, .inr (.inl ⟨b, m, hnx, hm, hmd, hu⟩)⟩
  | pairDot a b n m t u _ hn hnx hm hmd ht hu =>
    exact ⟨n, t, u, rfl, hn, ht, .inr (.inr ⟨b, m, hnx, hm, hmd, hu⟩)⟩

/-- Comparing two pairs, given the comparison of the parts. -/
theorem listEqual_settles {h : Heap} {x y : Addr} {c d u : Tree}
    (hc : ∀ (a b : Obj) u, Denotes true h a.v c → Denotes true h b.v u → Settles (fun f => equalRec F h f a b) (c = u))
    (hd : ∀ (a b : Obj) u, Denotes true h a.v d → Denotes true h b.v u → Settles (fun f => equalRec F h f a b) (d = u))
    (hq : ∀ (a b : Addr) u, Denotes true h (.list a) d → Denotes true h (.list b) u →
      Settles (fun f => listEqual F h f a b) (d = u))
    (hx : Denotes true h (.list x) (.cons c d)) (hy : Denotes true h (.list y) u) :
    Settles (fun f => listEqual F h f x y) (.cons c d = u) := by
  obtain ⟨n1, c1, d1, he1, hn1, hdat1, hcd1⟩ := cdr_cases hx
  cases he1
  obtain ⟨n2, c2, d2, rfl, hn2, hdat2, hcd2⟩ := cdr_cases hy
  have hcar := hc n1.data n2.data c2 hdat1 hdat2
  -- the rest of the comparison
  suffices hrest : Settles (fun fuel => (do
      let d1 ← dottedNext h n1
      let d2 ← dottedNext h n2
      match d1, d2 with
      | some o1, some o2 => equalRec F h fuel o1 o2
      | none, none =>
        match n1.next, n2.next with
        | none, none => pure true
        | some b1, some b2 => listEqual F h fuel b1 b2
        | _, _ => pure false
      | _, _ =>
        let c1 := cdrForEqual h n1 d1
        let c2 := cdrForEqual h n2 d2
        match c1.v, c2.v with
        | .list b1, .list b2 => listEqual F h fuel b1 b2
        | _, _ => equalRec F h fuel c1 c2 : Res Bool)) (d = d2) by
    refine (Settles.and hcar hrest (fun n => ?_)).congr (by simp)
    simp only [listEqual]
    rw [node?_ok hn1, node?_ok hn2]
    rfl
  have hmixed : ∀ (o1 o2 : Obj), Denotes true h o1.v d → Denotes true h o2.v d2 →
      Settles (fun fuel => (match o1.v, o2.v with
        | .list b1, .list b2 => listEqual F h fuel b1 b2
        | _, _ => equalRec F h fuel o1 o2 : Res Bool)) (d = d2) := by
    intro o1 o2 k1 k2
    by_cases hh : (∃ b1, o1.v = .list b1) ∧ (∃ b2, o2.v = .list b2)
    · obtain ⟨⟨b1, e1⟩, ⟨b2, e2⟩⟩ := hh
      simp only [e1, e2]
      exact hq b1 b2 d2 (e1 ▸ k1) (e2 ▸ k2)
    · have : (fun fuel => (match o1.v, o2.v with
        | .list b1, .list b2 => listEqual F h fuel b1 b2
        | _, _ => equalRec F h fuel o1 o2 : Res Bool)) = fun fuel => equalRec F h fuel o1 o2 := by
        funext fuel
        split
        · rename_i b1 b2 e1 e2
          exact absurd ⟨⟨b1, e1⟩, ⟨b2, e2⟩⟩ hh
        · rfl
      rw [this]
      exact hd o1 o2 d2 k1 k2
  have hcons : ∀ {b e}, Denotes true h (.list b) e → e ≠ .nil := by
    intro b e he hh; subst hh; cases he
  rcases hcd1 with ⟨e1, rfl⟩ | ⟨b1, m1, e1, hm1, f1, k1⟩ | ⟨b1, m1, e1, hm1, f1, k1⟩ <;>
    rcases hcd2 with ⟨e2, rfl⟩ | ⟨b2, m2, e2, hm2, f2, k2⟩ | ⟨b2, m2, e2, hm2, f2, k2⟩
  · simp only [dottedNext, e1, e2, Res.bind_ok]
    exact Settles.const true (by simp) (fun _ => rfl)
  · simp only [dottedNext, e1, e2, Res.bind_ok, node?_ok hm2, Res.pure_eq, f2]
    exact Settles.const false (by simp; exact (hcons k2).symm) (fun _ => rfl)
  · simp only [dottedNext, e1, e2, Res.bind_ok, node?_ok hm2, Res.pure_eq, f2, cdrForEqual]
    exact hmixed Obj.nil m2.data .nil k2
  · simp only [dottedNext, e1, e2, Res.bind_ok, node?_ok hm1, Res.pure_eq, f1]
    exact Settles.const false (by simp; exact hcons k1) (fun _ => rfl)
  · simp only [dottedNext, e1, e2, Res.bind_ok, node?_ok hm1, node?_ok hm2, Res.pure_eq, f1, f2]
    exact hq b1 b2 d2 k1 k2
  · simp only [dottedNext, e1, e2, Res.bind_ok, node?_ok hm1, node?_ok hm2, Res.pure_eq, f1, f2, cdrForEqual]
    exact hmixed ⟨h.nextId, .list b1⟩ m2.data k1 k2
  · simp only [dottedNext, e1, e2, Res.bind_ok, node?_ok hm1, Res.pure_eq, f1, cdrForEqual]
    exact hmixed m1.data Obj.nil k1 .nil
  · simp only [dottedNext, e1, e2, Res.bind_ok, node?_ok hm1, node?_ok hm2, Res.pure_eq, f1, f2, cdrForEqual]
    exact hmixed m1.data ⟨h.nextId, .list b2⟩ k1 k2
  · simp only [dottedNext, e1, e2, Res.bind_ok, node?_ok hm1, node?_ok hm2, Res.pure_eq, f1, f2]
    exact hd m1.data m2.data d2 k1 k2

/-- `equal?` settles on equality of the denoted trees (and so does the list walk for pairs). -/
theorem equalRec_settles {h : Heap} : ∀ (k : Nat) (t : Tree), sizeOf t ≤ k →
    (∀ (a b : Obj) u, Denotes true h a.v t → Denotes true h b.v u → Settles (fun f => equalRec F h f a b) (t = u)) ∧
    (∀ (x y : Addr) u, Denotes true h (.list x) t → Denotes true h (.list y) u →
      Settles (fun f => listEqual F h f x y) (t = u)) := by
  intro k
  induction k with
  | zero => intro t ht; cases t <;> simp at ht <;> omega
  | succ k ih =>
    intro t ht
    have hQ : ∀ (x y : Addr) u, Denotes true h (.list x) t → Denotes true h (.list y) u →
        Settles (fun f => listEqual F h f x y) (t = u) := by
      intro x y u hx hy
      cases t with
      | cons c d =>
        simp at ht
        exact listEqual_settles F (ih c (by omega)).1 (ih d (by omega)).1 (ih d (by omega)).2 hx hy
      | _ => cases hx
    refine ⟨?_, hQ⟩
    intro a b u ha hb
    by_cases hab : a = b
    · subst hab
      exact Settles.const true (by simp [ha.det hb]) (fun n => by simp [equalRec])
    by_cases hty : a.v.ty = b.v.ty
    · cases hav : a.v with
      | nil =>
        rw [hav] at ha hty; cases hbv : b.v <;> rw [hbv] at hb hty <;> simp [Val.ty] at hty
        cases ha; cases hb
        exact Settles.const true (by simp) (fun n => by simp [equalRec, hab, hav, hbv, Val.ty])
      | num x =>
        rw [hav] at ha hty; cases hbv : b.v <;> rw [hbv] at hb hty <;> simp [Val.ty] at hty
        rename_i y
        cases ha; cases hb
        exact Settles.const (decide (x = y)) (by simp) (fun n => by simp [equalRec, hab, hav, hbv, Val.ty, numberEq_int])
      | bool x =>
        rw [hav] at ha hty; cases hbv : b.v <;> rw [hbv] at hb hty <;> simp [Val.ty] at hty
        rename_i y
        cases ha; cases hb
        exact Settles.const (decide (x = y)) (by simp) (fun n => by simp [equalRec, hab, hav, hbv, Val.ty])
      | chr x =>
        rw [hav] at ha hty; cases hbv : b.v <;> rw [hbv] at hb hty <;> simp [Val.ty] at hty
        rename_i y
        cases ha; cases hb
        exact Settles.const (decide (x = y)) (by simp) (fun n => by simp [equalRec, hab, hav, hbv, Val.ty])
      | sym x =>
        rw [hav] at ha hty; cases hbv : b.v <;> rw [hbv] at hb hty <;> simp [Val.ty] at hty
        rename_i y
        cases ha with | sym _ hs => ?_
        cases hb with | sym _ ht => ?_
        exact Settles.const (decide (x = y)) (by simp)
          (fun n => by simp [equalRec, hab, hav, hbv, Val.ty, symEq_sym hs ht])
      | str x =>
        rw [hav] at ha hty; cases hbv : b.v <;> rw [hbv] at hb hty <;> simp [Val.ty] at hty
        rename_i y
        cases ha with | str _ s hs h0 => ?_
        cases hb with | str _ t ht h0' => ?_
        exact Settles.const (decide (s = t)) (by simp)
          (fun n => by simp [equalRec, hab, hav, hbv, Val.ty, symEq_str hs ht h0])
      | list x =>
        rw [hav] at ha hty; cases hbv : b.v <;> rw [hbv] at hb hty <;> simp [Val.ty] at hty
        rename_i y
        exact Settles.step (hQ x y u ha hb) (fun n => by simp [equalRec, hab, hav, hbv, Val.ty])
      | vec x =>
        rw [hav] at ha hty; cases hbv : b.v <;> rw [hbv] at hb hty <;> simp [Val.ty] at hty
        rename_i y
        cases ha with | vec _ xs ts hx hxs => ?_
        cases hb with | vec _ ys us hy hys => ?_
        have l1 := hxs.length
        have l2 := hys.length
        by_cases hl : xs.length = ys.length
        · have := vectorEqual_settles F (h := h) (fun s => sizeOf s ≤ k) (fun s hs => (ih s hs).1) ts
            (fun s hs => by
              have := List.sizeOf_lt_of_mem hs
              simp at ht; omega) xs ys us hxs hys (by omega)
          exact Settles.step (this.congr (by simp)) (fun n => by simp [equalRec, hab, hav, hbv, Val.ty, hx, hy, hl])
        · refine Settles.const false ?_ (fun n => by simp [equalRec, hab, hav, hbv, Val.ty, hx, hy, hl])
          simp
          intro e; subst e; omega
      | _ => rw [hav] at ha; cases ha
    · have hne : t ≠ u := fun e => hty (by rw [ha.ty, hb.ty, e])
      refine Settles.const false (by simp [hne]) (fun n => ?_)
      have := Tree.no_mix t u
      rw [← ha.ty, ← hb.ty] at this
      simp [equalRec, hab, hty, this]

/-! ### The legacy comparison -/

theorem legacyVector_settles {h : Heap} (P : Tree → Prop)
    (hP : ∀ t, P t → ∀ (a b : Obj) u, Denotes false h a.v t → Denotes false h b.v u →
      Settles (fun f => legacyEq F h f a b) (t = u)) :
    ∀ (ts : List Tree), (∀ t ∈ ts, P t) → ∀ xs ys us, DenotesAll false h xs ts → DenotesAll false h ys us →
      ts.length = us.length → Settles (fun f => legacyVectorEq F h f xs ys) (ts = us)
  | [], _, _, _, us, .nil, hy, hl => by
    cases hy with
    | nil => exact Settles.const true (by simp) (fun n => by simp [legacyVectorEq])
    | cons => simp at hl
  | t :: ts, hp, _, _, us, .cons x xs _ _ hx hxs, hy, hl => by
    cases hy with
    | nil => simp at hl
    | cons y ys u us hy hys =>
      have h1 := hP t (hp t (by simp)) x y u hx hy
      have h2 := legacyVector_settles P hP ts (fun s hs => hp s (by simp [hs])) xs ys us hxs hys (by simpa using hl)
      refine (Settles.and h1 h2 (fun n => ?_)).congr (by simp)
      simp [legacyVectorEq]

/-- The tree of a chain of nodes. -/
def Spec.DenotesChain (h : Heap) : Option Addr → Tree → Prop
  | none, t => t = .nil
  | some a, t => Denotes false h (.list a) t

theorem Spec.DenotesChain.cases {h : Heap} {x : Addr} {t : Tree} (hx : Denotes false h (.list x) t) :
    ∃ n c d, t = .cons c d ∧ h.nodes[x]? = some n ∧ Denotes false h n.data.v c ∧ DenotesChain h n.next d := by
  cases hx with
  | pairLast a n t hn hnx ht => exact ⟨n, t, .nil, rfl, hn, ht, by rw [hnx]; rfl⟩
  | pairNext a b n m t u hn hnx hm hmd ht hu => exact ⟨n, t, u, rfl, hn, ht, by rw [hnx]; exact hu⟩
  | pairDot a b n m t u hf => cases hf

theorem legacy_settles {h : Heap} : ∀ (k : Nat) (t : Tree), sizeOf t ≤ k →
    (∀ (a b : Obj) u, Denotes false h a.v t → Denotes false h b.v u → Settles (fun f => legacyEq F h f a b) (t = u)) ∧
    (∀ x y u, DenotesChain h x t → DenotesChain h y u →
      Settles (fun f => legacyListEq F h f x y) (t = u)) := by
  intro k
  induction k with
  | zero => intro t ht; cases t <;> simp at ht <;> omega
  | succ k ih =>
    intro t ht
    have hQ : ∀ x y u, DenotesChain h x t → DenotesChain h y u →
        Settles (fun f => legacyListEq F h f x y) (t = u) := by
      intro x y u hx hy
      cases x with
      | none =>
        simp only [DenotesChain] at hx; subst hx
        cases y with
        | none =>
          simp only [DenotesChain] at hy; subst hy
          exact Settles.const true (by simp) (fun n => by simp [legacyListEq])
        | some y =>
          refine Settles.const false ?_ (fun n => by simp [legacyListEq])
          simp; intro e; subst e; cases hy
      | some x =>
        cases y with
        | none =>
          simp only [DenotesChain] at hy; subst hy
          refine Settles.const false ?_ (fun n => by simp [legacyListEq])
          simp; intro e; subst e; cases hx
        | some y =>
          obtain ⟨n1, c1, d1, rfl, hn1, hc1, hd1⟩ := DenotesChain.cases hx
          obtain ⟨n2, c2, d2, rfl, hn2, hc2, hd2⟩ := DenotesChain.cases hy
          simp at ht
          refine (Settles.and ((ih c1 (by omega)).1 _ _ _ hc1 hc2) ((ih d1 (by omega)).2 _ _ _ hd1 hd2) (fun n => ?_)).congr (by simp)
          simp only [legacyListEq]
          rw [node?_ok hn1, node?_ok hn2]
          rfl
    refine ⟨?_, hQ⟩
    intro a b u ha hb
    by_cases hty : a.v.ty = b.v.ty
    · have hmix : numFloatMix a.v.ty b.v.ty = false := by rw [ha.ty, hb.ty]; exact Tree.no_mix t u
      cases hav : a.v with
      | nil =>
        rw [hav] at ha hty; cases hbv : b.v <;> rw [hbv] at hb hty <;> simp [Val.ty] at hty
        cases ha; cases hb
        exact Settles.const true (by simp) (fun n => by simp [legacyEq, numFloatMix, hav, hbv, Val.ty])
      | num x =>
        rw [hav] at ha hty; cases hbv : b.v <;> rw [hbv] at hb hty <;> simp [Val.ty] at hty
        rename_i y
        cases ha; cases hb
        exact Settles.const (decide (x = y)) (by simp)
          (fun n => by simp [legacyEq, numFloatMix, hav, hbv, Val.ty, numberEq_int])
      | bool x =>
        rw [hav] at ha hty; cases hbv : b.v <;> rw [hbv] at hb hty <;> simp [Val.ty] at hty
        rename_i y
        cases ha; cases hb
        exact Settles.const (decide (x = y)) (by simp) (fun n => by simp [legacyEq, numFloatMix, hav, hbv, Val.ty])
      | chr x =>
        rw [hav] at ha hty; cases hbv : b.v <;> rw [hbv] at hb hty <;> simp [Val.ty] at hty
        rename_i y
        cases ha; cases hb
        exact Settles.const (decide (x = y)) (by simp) (fun n => by simp [legacyEq, numFloatMix, hav, hbv, Val.ty])
      | sym x =>
        rw [hav] at ha hty; cases hbv : b.v <;> rw [hbv] at hb hty <;> simp [Val.ty] at hty
        rename_i y
        cases ha with | sym _ hs => ?_
        cases hb with | sym _ ht => ?_
        exact Settles.const (decide (x = y)) (by simp)
          (fun n => by simp [legacyEq, numFloatMix, hav, hbv, Val.ty, symEq_sym hs ht])
      | str x =>
        rw [hav] at ha hty; cases hbv : b.v <;> rw [hbv] at hb hty <;> simp [Val.ty] at hty
        rename_i y
        cases ha with | str _ s hs h0 => ?_
        cases hb with | str _ t ht h0' => ?_
        exact Settles.const (decide (s = t)) (by simp)
          (fun n => by simp [legacyEq, numFloatMix, hav, hbv, Val.ty, symEq_str hs ht h0])
      | list x =>
        rw [hav] at ha hty; cases hbv : b.v <;> rw [hbv] at hb hty <;> simp [Val.ty] at hty
        rename_i y
        exact Settles.step (hQ (some x) (some y) u ha hb) (fun n => by simp [legacyEq, numFloatMix, hav, hbv, Val.ty])
      | vec x =>
        rw [hav] at ha hty; cases hbv : b.v <;> rw [hbv] at hb hty <;> simp [Val.ty] at hty
        rename_i y
        cases ha with | vec _ xs ts hx hxs => ?_
        cases hb with | vec _ ys us hy hys => ?_
        have l1 := hxs.length
        have l2 := hys.length
        by_cases hl : xs.length = ys.length
        · have := legacyVector_settles F (h := h) (fun s => sizeOf s ≤ k) (fun s hs => (ih s hs).1) ts
            (fun s hs => by
              have := List.sizeOf_lt_of_mem hs
              simp at ht; omega) xs ys us hxs hys (by omega)
          exact Settles.step (this.congr (by simp)) (fun n => by simp [legacyEq, numFloatMix, hav, hbv, Val.ty, hx, hy, hl])
        · refine Settles.const false ?_ (fun n => by simp [legacyEq, numFloatMix, hav, hbv, Val.ty, hx, hy, hl])
          simp
          intro e; subst e; omega
      | _ => rw [hav] at ha; cases ha
    · have hne : t ≠ u := fun e => hty (by rw [ha.ty, hb.ty, e])
      refine Settles.const false (by simp [hne]) (fun n => ?_)
      have := Tree.no_mix t u
      rw [← ha.ty, ← hb.ty] at this
      simp [legacyEq, hty, this]

end
end Pscm
