import Verif.ListM
import Verif.HeapSpec
/-! # Lemmas about heap chains -/
namespace Pscm
open Spec

theorem Spec.Ext.refl (h : Heap) : Ext h h := ⟨fun _ _ => rfl, Nat.le_refl _, rfl, rfl, Nat.le_refl _⟩

theorem Spec.Ext.trans {h1 h2 h3 : Heap} (a : Ext h1 h2) (b : Ext h2 h3) : Ext h1 h3 :=
  ⟨fun x hx => by rw [b.nodes x (Nat.lt_of_lt_of_le hx a.len), a.nodes x hx], Nat.le_trans a.len b.len,
   b.vecs.trans a.vecs, b.strs.trans a.strs, Nat.le_trans a.ids b.ids⟩

theorem getElem?_lt {α} {l : List α} {i : Nat} {x : α} (h : l[i]? = some x) : i < l.length := by
  by_cases hi : i < l.length
  · exact hi
  · rw [List.getElem?_eq_none (by omega)] at h; cases h

theorem Spec.Ext.get {h h' : Heap} (e : Ext h h') {a : Addr} {n : Node} (hn : h.nodes[a]? = some n) :
    h'.nodes[a]? = some n := by rw [e.nodes a (getElem?_lt hn), hn]

theorem Spec.Path.mono {h h' : Heap} (e : Ext h h') : ∀ {ns p}, Path h p ns → Path h' p ns
  | [], _, hp => hp
  | (_, _) :: _, _, ⟨h1, h2, h3⟩ => ⟨h1, e.get h2, Path.mono e h3⟩

/-- Only the nodes on the path matter. -/
theorem Spec.Path.frame {h h' : Heap} : ∀ {ns p}, Path h p ns → (∀ x ∈ ns, h'.nodes[x.1]? = h.nodes[x.1]?) →
    Path h' p ns
  | [], _, hp, _ => hp
  | (a, n) :: r, _, ⟨h1, h2, h3⟩, hf =>
    ⟨h1, by rw [hf (a, n) (by simp)]; exact h2, Path.frame h3 (fun x hx => hf x (by simp [hx]))⟩

theorem Spec.Path.lt {h : Heap} : ∀ {ns p}, Path h p ns → ∀ x ∈ ns, x.1 < h.nodes.length
  | (a, n) :: r, _, ⟨_, h2, h3⟩, x, hx => by
    rcases List.mem_cons.1 hx with rfl | hx
    · exact getElem?_lt h2
    · exact Path.lt h3 x hx

theorem Spec.Path.get {h : Heap} : ∀ {ns p}, Path h p ns → ∀ x ∈ ns, h.nodes[x.1]? = some x.2
  | (a, n) :: r, _, ⟨_, h2, h3⟩, x, hx => by
    rcases List.mem_cons.1 hx with rfl | hx
    · exact h2
    · exact Path.get h3 x hx

theorem Spec.Path.det {h : Heap} : ∀ {ns ms p}, Path h p ns → Path h p ms → ns = ms
  | [], [], _, _, _ => rfl
  | [], (_, _) :: _, _, h1, ⟨h2, _⟩ => by rw [h1] at h2; cases h2
  | (_, _) :: _, [], _, ⟨h2, _⟩, h1 => by simp [Path] at h1; rw [h1] at h2; cases h2
  | (a, n) :: r, (b, m) :: s, p, ⟨h1, h2, h3⟩, ⟨k1, k2, k3⟩ => by
    have : a = b := by rw [h1] at k1; exact Option.some.inj k1
    subst this
    have : n = m := by rw [h2] at k2; exact Option.some.inj k2
    subst this
    rw [Path.det h3 k3]

/-- A path can be entered at each of its nodes. -/
theorem Spec.Path.suffix {h : Heap} : ∀ {ns p}, Path h p ns → ∀ x ∈ ns, ∃ pre suf, ns = pre ++ x :: suf ∧
    Path h (some x.1) (x :: suf)
  | (a, n) :: r, _, ⟨h1, h2, h3⟩, x, hx => by
    rcases List.mem_cons.1 hx with rfl | hx
    · exact ⟨[], r, rfl, rfl, h2, h3⟩
    · obtain ⟨pre, suf, e, hp⟩ := Path.suffix h3 x hx
      exact ⟨(a, n) :: pre, suf, by simp [e], hp⟩

theorem Spec.Path.nodup {h : Heap} : ∀ {ns p}, Path h p ns → (ns.map (·.1)).Nodup
  | [], _, _ => List.nodup_nil
  | (a, n) :: r, p, ⟨h1, h2, h3⟩ => by
    simp only [List.map_cons, List.nodup_cons]
    refine ⟨?_, Path.nodup h3⟩
    intro hmem
    obtain ⟨x, hx, hxa⟩ := List.mem_map.1 hmem
    obtain ⟨pre, suf, e, hp⟩ := Path.suffix h3 x hx
    have hfull : Path h (some a) ((a, n) :: r) := ⟨rfl, h2, h3⟩
    rw [hxa] at hp
    have := Path.det hfull hp
    have hl := congrArg List.length this
    rw [e] at hl
    simp at hl
    omega

theorem Spec.Path.append_inv {h : Heap} : ∀ {ns ms p}, Path h p (ns ++ ms) → ∃ q, Path h q ms ∧
    (ns = [] → q = p) ∧ (∀ x, ns.getLast? = some x → x.2.next = q)
  | [], ms, p, hp => ⟨p, hp, fun _ => rfl, by simp⟩
  | (a, n) :: r, ms, p, ⟨_, _, h3⟩ => by
    obtain ⟨q, hq, he, hl⟩ := Path.append_inv (ns := r) h3
    refine ⟨q, hq, by simp, ?_⟩
    intro x hx
    cases r with
    | nil => simp at hx; subst hx; exact (he rfl).symm
    | cons y ys => exact hl x (by rwa [List.getLast?_cons_cons] at hx)

/-- Extending a path at its end. -/
theorem Spec.Path.snoc {h h' : Heap} {t a : Addr} {n m : Node}
    (ht : h'.nodes[t]? = some { n with next := some a }) (ha : h'.nodes[a]? = some m) (hm : m.next = none) :
    ∀ {ns p}, Path h p (ns ++ [(t, n)]) → (∀ x ∈ ns, h'.nodes[x.1]? = h.nodes[x.1]?) →
    Path h' p (ns ++ [(t, { n with next := some a }), (a, m)])
  | [], _, ⟨h1, _, _⟩, _ => ⟨h1, ht, rfl, ha, hm⟩
  | (b, k) :: r, _, ⟨h1, h2, h3⟩, hf =>
    ⟨h1, by rw [hf (b, k) (by simp)]; exact h2,
      Path.snoc ht ha hm (ns := r) h3 (fun x hx => hf x (by simp [hx]))⟩

/-! ### Primitive steps -/

theorem getNode_ok {h : Heap} {a : Addr} {n : Node} (hn : h.nodes[a]? = some n) :
    getNode a h = (.ok n, h) := by simp [getNode, hn]

theorem ext_push (h : Heap) (n : Node) : Ext h { h with nodes := h.nodes ++ [n] } :=
  ⟨fun a ha => by simp [List.getElem?_append_left ha], by simp, rfl, rfl, Nat.le_refl _⟩

theorem ext_newId (h : Heap) (k : Nat) (hk : h.nextId ≤ k) : Ext h { h with nextId := k } :=
  ⟨fun _ _ => rfl, Nat.le_refl _, rfl, rfl, hk⟩

/-! ### Builders -/

/-- The list under construction in `b` holds `xs`, its nodes were allocated after `h0`, and nothing of `h0` was
touched. -/
def BInv (h0 h : Heap) (b : Builder) (xs : List Obj) : Prop :=
  Ext h0 h ∧ ∃ ns, Path h b.head ns ∧ ns.map (·.2.data) = xs ∧ (∀ x ∈ ns, x.2.dotted = false) ∧
    (∀ x ∈ ns, h0.nodes.length ≤ x.1) ∧ b.tail = ns.getLast?.map (·.1)

theorem BInv.empty (h : Heap) : BInv h h Builder.empty [] :=
  ⟨Ext.refl h, [], rfl, rfl, by simp, by simp, rfl⟩

theorem BInv.mono {h0 h h' : Heap} {b xs} (i : BInv h0 h b xs) (e : Ext h h') : BInv h0 h' b xs := by
  obtain ⟨e0, ns, hp, r⟩ := i
  exact ⟨e0.trans e, ns, hp.mono e, r⟩

theorem BInv.push {h0 h : Heap} {b xs} (i : BInv h0 h b xs) (d : Obj) :
    ∃ b' h', b.push d h = (.ok b', h') ∧ BInv h0 h' b' (xs ++ [d]) ∧ h'.nextId = h.nextId := by
  obtain ⟨e0, ns, hp, hx, hd, hge, ht⟩ := i
  rcases List.eq_nil_or_concat ns with rfl | ⟨ms, ⟨t, n⟩, rfl⟩
  · simp at ht hx
    refine ⟨⟨some h.nodes.length, some h.nodes.length⟩, { h with nodes := h.nodes ++ [(⟨d, none, false⟩ : Node)] }, ?_, ?_⟩
    · simp [Builder.push, M.bind_app, makeList, allocNode, ht]
    · refine ⟨⟨e0.trans (ext_push h _), [(h.nodes.length, ⟨d, none, false⟩)], ?_, by simp [← hx], by simp,
        by simpa using e0.len, rfl⟩, rfl⟩
      exact ⟨rfl, by simp, rfl⟩
  · simp only [List.concat_eq_append] at *
    have htl : b.tail = some t := by simpa using ht
    have hget : h.nodes[t]? = some n := hp.get (t, n) (by simp)
    have hlt : t < h.nodes.length := getElem?_lt hget
    have hnd := hp.nodup
    have hnone : n.next = none := by
      obtain ⟨q, hq, -, -⟩ := Path.append_inv hp
      exact hq.2.2
    have htge : h0.nodes.length ≤ t := hge (t, n) (by simp)
    refine ⟨⟨b.head, some h.nodes.length⟩,
      { h with nodes := (h.nodes ++ [(⟨d, none, false⟩ : Node)]).set t { n with next := some h.nodes.length } }, ?_, ?_⟩
    · have : (h.nodes ++ [(⟨d, none, false⟩ : Node)])[t]? = some n := by
        rw [List.getElem?_append_left hlt]; exact hget
      have hl2 : t < (h.nodes ++ [(⟨d, none, false⟩ : Node)]).length := by simp; omega
      simp only [Builder.push, M.bind_app, makeList, allocNode, htl, getNode, this, setNode, if_pos hl2]
      rfl
    · have hset : ∀ a, a < h.nodes.length → a ≠ t →
          ((h.nodes ++ [(⟨d, none, false⟩ : Node)]).set t { n with next := some h.nodes.length })[a]? = h.nodes[a]? := by
        intro a ha hne
        rw [List.getElem?_set_ne (by omega), List.getElem?_append_left ha]
      refine ⟨⟨⟨?_, ?_, e0.vecs, e0.strs, e0.ids⟩,
        ms ++ [(t, { n with next := some h.nodes.length }), (h.nodes.length, ⟨d, none, false⟩)], ?_, ?_, ?_, ?_, ?_⟩,
        rfl⟩
      · intro a ha
        have := e0.len
        show ((h.nodes ++ [(⟨d, none, false⟩ : Node)]).set t _)[a]? = _
        rw [hset a (by omega) (by omega), e0.nodes a ha]
      · have := e0.len
        simp; omega
      · refine Path.snoc (h := h) ?_ ?_ rfl hp ?_
        · rw [List.getElem?_set_self (by simp; omega)]
        · have : t ≠ h.nodes.length := by omega
          show ((h.nodes ++ [(⟨d, none, false⟩ : Node)]).set t _)[h.nodes.length]? = _
          rw [List.getElem?_set_ne this]; simp
        · intro x hxm
          refine hset x.1 (hp.lt x (by simp [hxm])) ?_
          intro he
          rw [List.map_append, List.nodup_append] at hnd
          exact hnd.2.2 x.1 (List.mem_map.2 ⟨x, hxm, rfl⟩) t (by simp) he
      · simp only [List.map_append, List.map_cons, List.map_nil, ← hx, List.append_assoc]; rfl
      · intro x hxm
        simp at hxm
        rcases hxm with hxm | rfl | rfl
        · exact hd x (by simp [hxm])
        · exact hd (t, n) (by simp)
        · rfl
      · intro x hxm
        simp at hxm
        rcases hxm with hxm | rfl | rfl
        · exact hge x (by simp [hxm])
        · exact htge
        · exact e0.len
      · simp

theorem BInv.pushChain {h0 : Heap} : ∀ {ns : List (Addr × Node)} {p fuel h b xs}, BInv h0 h b xs → Path h0 p ns →
    ns.length < fuel →
    ∃ b' h', Builder.pushChain fuel b p h = (.ok b', h') ∧ BInv h0 h' b' (xs ++ ns.map (·.2.data)) ∧
      h'.nextId = h.nextId
  | [], p, 0, _, _, _, _, _, hf => by simp at hf
  | [], p, fuel + 1, h, b, xs, i, hp, _ => by
    simp [Path] at hp; subst hp
    exact ⟨b, h, rfl, by simpa using i, rfl⟩
  | (a, n) :: r, p, 0, _, _, _, _, _, hf => by simp at hf
  | (a, n) :: r, p, fuel + 1, h, b, xs, i, ⟨h1, h2, h3⟩, hf => by
    subst h1
    obtain ⟨b1, h1', e1, i1, k1⟩ := i.push n.data
    obtain ⟨b2, h2', e2, i2, k2⟩ := BInv.pushChain (fuel := fuel) i1 h3 (by simp at hf; omega)
    refine ⟨b2, h2', ?_, by simpa using i2, by rw [k2, k1]⟩
    simp only [Builder.pushChain]
    rw [M.bind_ok (getNode_ok (i.1.get h2)), M.bind_ok e1, e2]

theorem BInv.pushAll {h0 : Heap} : ∀ {ys h b xs}, BInv h0 h b xs →
    ∃ b' h', Builder.pushAll b ys h = (.ok b', h') ∧ BInv h0 h' b' (xs ++ ys) ∧ h'.nextId = h.nextId
  | [], h, b, xs, i => ⟨b, h, rfl, by simpa using i, rfl⟩
  | y :: ys, h, b, xs, i => by
    obtain ⟨b1, h1', e1, i1, k1⟩ := i.push y
    obtain ⟨b2, h2', e2, i2, k2⟩ := BInv.pushAll (ys := ys) i1
    refine ⟨b2, h2', ?_, by simpa using i2, by rw [k2, k1]⟩
    simp only [Builder.pushAll]
    rw [M.bind_ok e1, e2]

/-- Finishing a builder: the result is a proper list of fresh pairs. -/
theorem BInv.finish {h0 h : Heap} {b xs} (i : BInv h0 h b xs) :
    ∃ o h' as, wrapList b.head h = (.ok o, h') ∧ Ext h0 h' ∧ ProperList h' o as xs ∧
      (∀ a ∈ as, h0.nodes.length ≤ a) := by
  obtain ⟨e0, ns, hp, hx, hd, hge, ht⟩ := i
  have hfresh : ∀ a ∈ ns.map (·.1), h0.nodes.length ≤ a := by
    intro a ha
    obtain ⟨x, hx, rfl⟩ := List.mem_map.1 ha
    exact hge x hx
  cases hb : b.head with
  | none =>
    rw [hb] at hp
    refine ⟨Obj.nil, h, ns.map (·.1), rfl, e0, ⟨none, ns, rfl, hp, rfl, hx, hd⟩, hfresh⟩
  | some a =>
    rw [hb] at hp
    have e1 := ext_newId h (h.nextId + 1) (by omega)
    refine ⟨⟨h.nextId, .list a⟩, { h with nextId := h.nextId + 1 }, ns.map (·.1), rfl, e0.trans e1,
      ⟨some a, ns, rfl, hp.mono e1, rfl, hx, hd⟩, hfresh⟩

/-! ### Loops over chains -/

theorem lastNode_path {h : Heap} : ∀ {ns : List (Addr × Node)} {a fuel}, Path h (some a) ns → ns.length ≤ fuel →
    ∃ x, ns.getLast? = some x ∧ lastNode fuel a h = (.ok x.1, h)
  | [], a, _, hp, _ => by simp [Path] at hp
  | (b, n) :: r, a, 0, _, hf => by simp at hf
  | (b, n) :: r, a, fuel + 1, ⟨h1, h2, h3⟩, hf => by
    cases h1
    cases hn : n.next with
    | none =>
      rw [hn] at h3
      cases r with
      | nil => exact ⟨(b, n), rfl, by simp [lastNode, M.bind_app, getNode_ok h2, hn]⟩
      | cons y ys => exact absurd h3.1 (by simp)
    | some c =>
      rw [hn] at h3
      cases r with
      | nil => simp [Path] at h3
      | cons y ys =>
        obtain ⟨x, hx, hl⟩ := lastNode_path (fuel := fuel) h3 (by simp at hf ⊢; omega)
        refine ⟨x, by simpa [List.getLast?_cons_cons] using hx, ?_⟩
        simp only [lastNode]
        rw [M.bind_ok (getNode_ok h2), hn]
        exact hl

/-! ### Exact results of `cons` -/

theorem setNode_last (h : Heap) (n m : Node) :
    setNode h.nodes.length m { h with nodes := h.nodes ++ [n] } = (.ok (), { h with nodes := h.nodes ++ [m] }) := by
  simp [setNode]

theorem cons_list {h : Heap} {x d : Obj} {a fuel ns} (hv : d.v = .list a) (hp : Path h (some a) ns)
    (hl : ns.length ≤ fuel) :
    cons fuel x d h = (.ok ⟨h.nextId, .list h.nodes.length⟩,
      { h with nodes := h.nodes ++ [⟨x, some a, false⟩], nextId := h.nextId + 1 }) := by
  obtain ⟨y, -, hlast⟩ := lastNode_path (fuel := fuel) (hp.mono (ext_push h ⟨x, some a, false⟩)) hl
  simp only [cons, makeList]
  rw [M.bind_ok (h := h) (a := h.nodes.length) (h' := { h with nodes := h.nodes ++ [⟨x, none, false⟩] }) rfl]
  simp only [hv]
  rw [M.bind_ok (setNode_last h _ _), M.bind_ok hlast]
  rfl

theorem cons_nil {h : Heap} {x d : Obj} {fuel} (hv : d.v = .nil) :
    cons fuel x d h = (.ok ⟨h.nextId, .list h.nodes.length⟩,
      { h with nodes := h.nodes ++ [⟨x, none, false⟩], nextId := h.nextId + 1 }) := by
  simp [cons, makeList, allocNode, M.bind_app, hv, newObj]

theorem cons_atom {h : Heap} {x d : Obj} {fuel} (h1 : d.v ≠ .nil) (h2 : ∀ a, d.v ≠ .list a) :
    cons fuel x d h = (.ok ⟨h.nextId, .list h.nodes.length⟩,
      { h with nodes := h.nodes ++ [⟨x, some (h.nodes.length + 1), false⟩, ⟨d, none, true⟩],
               nextId := h.nextId + 1 }) := by
  cases hv : d.v with
  | nil => exact absurd hv h1
  | list a => exact absurd hv (h2 a)
  | _ => simp [cons, makeList, allocNode, M.bind_app, hv, newObj, setNode, List.set_append]

theorem ext_push2 (h : Heap) (ns : List Node) (k : Nat) (hk : h.nextId ≤ k) :
    Ext h { h with nodes := h.nodes ++ ns, nextId := k } :=
  ⟨fun a ha => by simp [List.getElem?_append_left ha], by simp, rfl, rfl, hk⟩

end Pscm
