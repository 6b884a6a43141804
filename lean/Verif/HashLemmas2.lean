import Verif.HashLemmas
import Verif.AlistLemmas2
/-! # Hash tables: the operations preserve the representation invariant -/
namespace Pscm
open Spec

variable {κ : Type} [DecidableEq κ]
variable {fam : Fam} {h0 h : Heap} {K : Obj → Prop} {cls : Obj → κ} {H : κ → Nat} {t : HT} {es : List (List Ent)}
  {m : List (κ × Obj)}

theorem HInv.mono {h' : Heap} (inv : HInv h0 h K cls H t es m) (he : Ext h h') : HInv h0 h' K cls H t es m :=
  { inv with
    ext := inv.ext.trans he
    ent := fun i b x hi hx =>
      let o := inv.ent i b x hi hx
      ⟨o.k, o.idx, o.ge, o.gb, he.get o.ne, he.get o.nb⟩ }

theorem HInv.entOf (inv : HInv h0 h K cls H t es m) {x : Ent} (hx : x ∈ es.flatten) : ∃ i, EntOk h0 h K cls H t.cap i x := by
  obtain ⟨i, b, hi, hb⟩ := mem_flatten_iff.1 hx
  exact ⟨i, inv.ent i b x hi hb⟩

/-- What the common prologue of all operations finds. -/
theorem HInv.find (gf : GoodFam fam h0 K cls H) (inv : HInv h0 h K cls H t es m) {key : Obj} (hk : K key) :
    ∃ b : List Ent, es[H (cls key) % t.cap]? = some b ∧ bucketIdx fam t key h = (.ok (H (cls key) % t.cap), h) ∧
      bucketAt t (H (cls key) % t.cap) h = (.ok (b.map Ent.e), h) ∧
      ((∃ x, x ∈ es.flatten ∧ x ∈ b ∧ cls x.key = cls key ∧ mget m (cls key) = some x.v ∧
          findEntry fam key (b.map Ent.e) h = (.ok (some x.e), h)) ∨
        (mget m (cls key) = none ∧ (∀ x ∈ es.flatten, cls x.key ≠ cls key) ∧
          findEntry fam key (b.map Ent.e) h = (.ok none, h))) := by
  obtain ⟨b, hb, hbk, hall⟩ := inv.bucket (cls key)
  refine ⟨b, hb, bucketIdx_spec gf inv hk, bucketAt_spec hbk, ?_⟩
  have hfe := findEntry_spec gf inv.ext hk b (fun x hx => inv.ent _ b x hb hx)
  have hlk := inv.lookup hb hall
  cases hf : b.find? (fun x => decide (cls key = cls x.key)) with
  | some x =>
    rw [hf] at hlk hfe
    exact .inl ⟨x, hlk.1, hlk.2.1, hlk.2.2.1, hlk.2.2.2, hfe⟩
  | none =>
    rw [hf] at hlk hfe
    exact .inr ⟨hlk.1, hlk.2, hfe⟩

theorem HInv.hashSet (gf : GoodFam fam h0 K cls H) (inv : HInv h0 h K cls H t es m) {key : Obj} (hk : K key) (v : Obj) :
    ∃ t' h' es', hashSet fam t key v h = (.ok (v, t'), h') ∧ HInv h0 h' K cls H t' es' (mset m (cls key) v) := by
  obtain ⟨b, hb, e1, e2, ⟨x, hx, -, hc, -, e3⟩ | ⟨-, hno, e3⟩⟩ := inv.find gf hk
  · obtain ⟨h', es', eu, inv', -⟩ := inv.update hx v
    refine ⟨t, h', es', ?_, by rw [hc] at inv'; exact inv'⟩
    unfold Pscm.hashSet
    rw [M.bind_ok e1, M.bind_ok e2, M.bind_ok e3]
    simp only
    rw [M.bind_ok eu]
    rfl
  · obtain ⟨h', es', o, t', ei, inv', -, -⟩ := inv.insert hk v hno
    refine ⟨t', h', es', ?_, inv'⟩
    unfold Pscm.hashSet
    rw [M.bind_ok e1, M.bind_ok e2, M.bind_ok e3]
    simp only
    rw [M.bind_ok ei]
    rfl

theorem HInv.hashCreate (gf : GoodFam fam h0 K cls H) (inv : HInv h0 h K cls H t es m) {key : Obj} (hk : K key) (v : Obj)
    {fuel : Nat} (hv : OrdinaryCdr h0 v fuel) :
    ∃ t' h' es' o, hashCreateHandle fam fuel t key v h = (.ok (o, t'), h') ∧ HInv h0 h' K cls H t' es' (mset m (cls key) v) ∧
      ∃ k, cls k = cls key ∧ PairOf h' o k v := by
  obtain ⟨b, hb, e1, e2, ⟨x, hx, -, hc, -, e3⟩ | ⟨-, hno, e3⟩⟩ := inv.find gf hk
  · obtain ⟨h', es', eu, inv', hx'⟩ := inv.update hx v
    obtain ⟨i, ok⟩ := inv'.entOf hx'
    obtain ⟨z, h2, ec, ex, -, -, hp⟩ := cons_pairOf (k := x.key) (v := v) inv'.ext hv
    refine ⟨t, h2, es', z, ?_, ?_, x.key, hc, PlainPairOf.pairOf (hp h2 (inv'.ext.trans ex) (fun _ _ _ => rfl))⟩
    · unfold Pscm.hashCreateHandle
      rw [M.bind_ok e1, M.bind_ok e2, M.bind_ok e3]
      simp only
      rw [M.bind_ok eu, M.bind_ok (getNode_ok ok.ne)]
      simp only
      rw [M.bind_ok (getNode_ok ok.nb)]
      simp only
      rw [M.bind_ok ec]
      rfl
    · rw [hc] at inv'
      exact inv'.mono ex
  · obtain ⟨h', es', o, t', ei, inv', hp, -⟩ := inv.insert hk v hno
    refine ⟨t', h', es', o, ?_, inv', key, rfl, hp⟩
    unfold Pscm.hashCreateHandle
    rw [M.bind_ok e1, M.bind_ok e2, M.bind_ok e3]
    simp only
    exact ei

theorem HInv.hashRef (gf : GoodFam fam h0 K cls H) (inv : HInv h0 h K cls H t es m) {key : Obj} (hk : K key) :
    hashRef fam t key h = (.ok ((mget m (cls key)).getD Obj.f), h) := by
  obtain ⟨b, hb, e1, e2, ⟨x, hx, -, hc, hg, e3⟩ | ⟨hg, hno, e3⟩⟩ := inv.find gf hk
  · obtain ⟨i, ok⟩ := inv.entOf hx
    unfold Pscm.hashRef
    rw [M.bind_ok e1, M.bind_ok e2, M.bind_ok e3]
    simp only
    rw [M.bind_ok (getNode_ok ok.ne)]
    simp only
    rw [M.bind_ok (getNode_ok ok.nb), hg]
    rfl
  · unfold Pscm.hashRef
    rw [M.bind_ok e1, M.bind_ok e2, M.bind_ok e3, hg]
    rfl

theorem HInv.hashGetHandle (gf : GoodFam fam h0 K cls H) (inv : HInv h0 h K cls H t es m) {key : Obj} (hk : K key) :
    ∃ o h', hashGetHandle fam t key h = (.ok o, h') ∧ Ext h h' ∧
      match mget m (cls key) with
      | none => o = Obj.f
      | some v => ∃ k, cls k = cls key ∧ PairOf h' o k v := by
  obtain ⟨b, hb, e1, e2, ⟨x, hx, -, hc, hg, e3⟩ | ⟨hg, hno, e3⟩⟩ := inv.find gf hk
  · obtain ⟨i, ok⟩ := inv.entOf hx
    refine ⟨⟨h.nextId, .list x.e⟩, { h with nextId := h.nextId + 1 }, ?_, ext_newId h _ (by omega), ?_⟩
    · unfold Pscm.hashGetHandle
      rw [M.bind_ok e1, M.bind_ok e2, M.bind_ok e3]
      rfl
    · rw [hg]
      exact ⟨x.key, hc, x.e, _, rfl, ok.ne, rfl, _, ok.nb, by simp⟩
  · refine ⟨Obj.f, h, ?_, Ext.refl h, by rw [hg]⟩
    unfold Pscm.hashGetHandle
    rw [M.bind_ok e1, M.bind_ok e2, M.bind_ok e3]
    rfl

theorem length_filter_flatten {α : Type} (p : α → Bool) : ∀ (es : List (List α)),
    (es.map (·.filter p)).flatten = es.flatten.filter p
  | [] => rfl
  | b :: es => by
    rw [List.map_cons, List.flatten_cons, length_filter_flatten p es, List.flatten_cons, List.filter_append]

theorem length_filter_ne {κ : Type} [DecidableEq κ] {α : Type} (g : α → κ) (c : κ) : ∀ {l : List α}, (l.map g).Nodup →
    (∃ x ∈ l, g x = c) → (l.filter (fun x => decide (c ≠ g x))).length + 1 = l.length
  | [], _, h => by obtain ⟨x, hx, -⟩ := h; cases hx
  | y :: l, hn, h => by
    simp only [List.map_cons, List.nodup_cons] at hn
    by_cases hy : c = g y
    · rw [List.filter_cons_of_neg (by simp [hy])]
      rw [List.filter_eq_self.2]
      · simp
      · intro z hz
        simp only [decide_eq_true_eq]
        intro e
        exact hn.1 (List.mem_map.2 ⟨z, hz, by rw [← e, hy]⟩)
    · rw [List.filter_cons_of_pos (by simp [hy])]
      obtain ⟨x, hx, hc⟩ := h
      rcases List.mem_cons.1 hx with rfl | hx
      · exact absurd hc.symm hy
      · simp only [List.length_cons]
        rw [length_filter_ne g c hn.2 ⟨x, hx, hc⟩]

/-- The classes of all entries are distinct. -/
theorem HInv.nodupAll (inv : HInv h0 h K cls H t es m) : (es.flatten.map (fun x => cls x.key)).Nodup := by
  have key : ∀ (es : List (List Ent)) (k : Nat), (∀ b ∈ es, (b.map (fun x => cls x.key)).Nodup) →
      (∀ i b x, es[i]? = some b → x ∈ b → H (cls x.key) % t.cap = i + k) → (es.flatten.map (fun x => cls x.key)).Nodup := by
    intro es
    induction es with
    | nil => intros; simp
    | cons b es ih =>
      intro k hnd hidx
      rw [List.flatten_cons, List.map_append, List.nodup_append]
      refine ⟨hnd b (by simp), ih (k + 1) (fun c hc => hnd c (by simp [hc])) ?_, ?_⟩
      · intro i c x hi hx
        have := hidx (i + 1) c x (by simpa using hi) hx
        omega
      · intro c hc c' hc'
        obtain ⟨x, hx, rfl⟩ := List.mem_map.1 hc
        obtain ⟨y, hy, rfl⟩ := List.mem_map.1 hc'
        obtain ⟨j, d, hj, hd⟩ := mem_flatten_iff.1 hy
        have h1 := hidx 0 b x (by simp) hx
        have h2 := hidx (j + 1) d y (by simpa using hj) hd
        intro e
        rw [e] at h1
        omega
  exact key es 0 inv.nd (fun i b x hi hx => (inv.ent i b x hi hx).idx)

theorem HInv.hashRemove (gf : GoodFam fam h0 K cls H) (inv : HInv h0 h K cls H t es m) {key : Obj} (hk : K key) :
    ∃ t' es', hashRemove fam t key h = (.ok (Obj.none, t'), h) ∧ HInv h0 h K cls H t' es' (mremove m (cls key)) := by
  obtain ⟨b, hb, hbk, hall⟩ := inv.bucket (cls key)
  have e1 := bucketIdx_spec gf inv hk
  have e2 : bucketAt t (H (cls key) % t.cap) h = _ := bucketAt_spec hbk
  have e3 := removeFrom_spec gf inv.ext hk b (fun x hx => inv.ent _ b x hb hx) (inv.nd b (List.mem_of_getElem? hb))
  let p : Ent → Bool := fun x => decide (cls key ≠ cls x.key)
  have mapEq : ∀ c v, (c, v) ∈ mremove m (cls key) ↔ ∃ x ∈ es.flatten.filter p, cls x.key = c ∧ x.v = v := by
    intro c v
    simp only [mremove, List.mem_filter, decide_eq_true_eq, p, inv.map]
    constructor
    · rintro ⟨⟨x, hx, hc, hv⟩, hne⟩
      exact ⟨x, ⟨hx, fun e => hne (by rw [← hc, ← e])⟩, hc, hv⟩
    · rintro ⟨x, ⟨hx, hne⟩, hc, hv⟩
      exact ⟨⟨x, hx, hc, hv⟩, fun e => hne (by rw [hc, ← e])⟩
  by_cases hany : b.any (fun x => decide (cls key = cls x.key)) = true
  · rw [if_pos hany] at e3
    have hex : ∃ x ∈ es.flatten, cls x.key = cls key := by
      obtain ⟨x, hx, hc⟩ := List.any_eq_true.1 hany
      exact ⟨x, mem_flatten_iff.2 ⟨_, b, hb, hx⟩, (of_decide_eq_true hc).symm⟩
    have hflat := length_filter_flatten p es
    refine ⟨{ t with buckets := t.buckets.set (H (cls key) % t.cap) ((b.filter p).map Ent.e), size := t.size - 1 },
      es.map (·.filter p), ?_, ?_⟩
    · unfold Pscm.hashRemove
      rw [M.bind_ok e1, M.bind_ok e2, M.bind_ok e3]
      rfl
    · refine ⟨inv.ext, inv.cap, by simpa using inv.len, ?_, ?_, ?_, ?_, ?_, ?_, nodup_mremove inv.mnd _⟩
      · show t.buckets.set _ _ = _
        rw [inv.bk, ← List.map_set, List.map_map]
        apply List.ext_getElem?
        intro j
        simp only [List.getElem?_map]
        by_cases hj : H (cls key) % t.cap = j
        · subst hj
          rw [List.getElem?_set_self (getElem?_lt hb), hb]
          rfl
        · rw [List.getElem?_set_ne hj]
          cases hc : es[j]? with
          | none => rfl
          | some c =>
            simp only [Option.map_some, Function.comp]
            congr 2
            symm
            rw [List.filter_eq_self]
            intro x hx
            simp only [p, decide_eq_true_eq]
            intro e
            have := (inv.ent j c x hc hx).idx
            rw [← e] at this
            exact hj this
      · intro i c x hi hx
        simp only [List.getElem?_map, Option.map_eq_some_iff] at hi
        obtain ⟨c', hc', rfl⟩ := hi
        exact inv.ent i c' x hc' (List.mem_filter.1 hx).1
      · rw [hflat]
        intro x hx y hy
        exact inv.sep x (List.mem_filter.1 hx).1 y (List.mem_filter.1 hy).1
      · intro c hc
        obtain ⟨d, hd, rfl⟩ := List.mem_map.1 hc
        exact (List.Sublist.map _ List.filter_sublist).nodup (inv.nd d hd)
      · rw [hflat]
        have := length_filter_ne (fun x : Ent => cls x.key) (cls key) inv.nodupAll hex
        have := inv.size
        show t.size - 1 = (es.flatten.filter p).length
        simp only [p]
        omega
      · intro c v
        rw [hflat]
        exact mapEq c v
  · rw [if_neg hany] at e3
    refine ⟨t, es, ?_, ?_⟩
    · unfold Pscm.hashRemove
      rw [M.bind_ok e1, M.bind_ok e2, M.bind_ok e3]
      rfl
    · have hself : es.flatten.filter p = es.flatten := by
        rw [List.filter_eq_self]
        intro x hx
        simp only [p, decide_eq_true_eq]
        intro e
        exact hany (List.any_eq_true.2 ⟨x, hall x hx e.symm, by simp [e]⟩)
      exact { inv with
        map := fun c v => by rw [mapEq, hself]
        mnd := nodup_mremove inv.mnd _ }

/-- The steps allowed in a history. -/
def Spec.OpOk (h0 : Heap) (K : Obj → Prop) (fuel : Nat) (op : HOp) : Prop :=
  (∀ k, op.key? = some k → K k) ∧
  match op with
  | .create _ v => OrdinaryCdr h0 v fuel
  | .other f => ∀ h, Ext h (f h)
  | _ => True

theorem HInv.step (gf : GoodFam fam h0 K cls H) (inv : HInv h0 h K cls H t es m) {fuel : Nat} {op : HOp}
    (hop : OpOk h0 K fuel op) :
    ∃ t' h' es', HOp.run fam fuel t op h = (.ok t', h') ∧ HInv h0 h' K cls H t' es' (op.apply cls m) := by
  cases op with
  | set k v =>
    obtain ⟨t', h', es', e, i⟩ := inv.hashSet gf (hop.1 k rfl) v
    refine ⟨t', h', es', ?_, i⟩
    simp only [HOp.run]
    rw [M.bind_ok e]; rfl
  | create k v =>
    obtain ⟨t', h', es', o, e, i, -⟩ := inv.hashCreate gf (hop.1 k rfl) v hop.2
    refine ⟨t', h', es', ?_, i⟩
    simp only [HOp.run]
    rw [M.bind_ok e]; rfl
  | remove k =>
    obtain ⟨t', es', e, i⟩ := inv.hashRemove gf (hop.1 k rfl)
    refine ⟨t', h, es', ?_, i⟩
    simp only [HOp.run]
    rw [M.bind_ok e]; rfl
  | ref k =>
    refine ⟨t, h, es, ?_, inv⟩
    simp only [HOp.run]
    rw [M.bind_ok (inv.hashRef gf (hop.1 k rfl))]; rfl
  | handle k =>
    obtain ⟨o, h', e, ex, -⟩ := inv.hashGetHandle gf (hop.1 k rfl)
    refine ⟨t, h', es, ?_, inv.mono ex⟩
    simp only [HOp.run]
    rw [M.bind_ok e]; rfl
  | other f => exact ⟨t, f h, es, rfl, inv.mono (hop.2 h)⟩

theorem HInv.runOps (gf : GoodFam fam h0 K cls H) {fuel : Nat} : ∀ {ops : List HOp} {h : Heap} {t : HT} {es : List (List Ent)}
    {m : List (κ × Obj)}, HInv h0 h K cls H t es m → (∀ op ∈ ops, OpOk h0 K fuel op) →
    ∃ t' h' es', runHOps fam fuel ops t h = (.ok t', h') ∧ HInv h0 h' K cls H t' es' (ops.foldl (HOp.apply cls) m)
  | [], h, t, es, m, inv, _ => ⟨t, h, es, rfl, inv⟩
  | op :: ops, h, t, es, m, inv, hops => by
    obtain ⟨t1, h1, es1, e1, inv1⟩ := inv.step gf (hops op (by simp))
    obtain ⟨t2, h2, es2, e2, inv2⟩ := HInv.runOps gf inv1 (fun o ho => hops o (List.mem_cons_of_mem _ ho))
    refine ⟨t2, h2, es2, ?_, inv2⟩
    simp only [runHOps]
    rw [M.bind_ok e1]
    exact e2

theorem HInv.new {cap : Nat} (hc : 0 < cap) (h0 : Heap) (K : Obj → Prop) (cls : Obj → κ) (H : κ → Nat) :
    HInv h0 h0 K cls H ⟨cap, 0, List.replicate cap []⟩ (List.replicate cap []) [] := by
  have hfl : (List.replicate cap ([] : List Ent)).flatten = [] := by simp
  refine ⟨Ext.refl h0, hc, by simp, by simp, ?_, ?_, ?_, ?_, ?_, by simp⟩
  · intro i b x hi hx
    have := List.mem_of_getElem? hi
    rw [List.mem_replicate] at this
    rw [this.2] at hx; cases hx
  · rw [hfl]; simp
  · intro b hb
    rw [List.mem_replicate] at hb
    rw [hb.2]; simp
  · rw [hfl]; rfl
  · rw [hfl]; simp

theorem nodup_of_map {α β : Type} (f : α → β) : ∀ {l : List α}, (l.map f).Nodup → l.Nodup
  | [], _ => List.nodup_nil
  | x :: l, h => by
    simp only [List.map_cons, List.nodup_cons] at h ⊢
    exact ⟨fun hx => h.1 (List.mem_map.2 ⟨x, hx, rfl⟩), nodup_of_map f h.2⟩

/-- The calls made by a fold: every entry once, as a permutation of the map. -/
theorem HInv.entries_perm (inv : HInv h0 h K cls H t es m) : (es.flatten.map (fun x => (cls x.key, x.v))).Perm m := by
  have n1 : (es.flatten.map (fun x => (cls x.key, x.v))).Nodup := by
    have := inv.nodupAll
    have e : (es.flatten.map (fun x => cls x.key)) = (es.flatten.map (fun x => (cls x.key, x.v))).map (·.1) := by
      rw [List.map_map]; rfl
    rw [e] at this
    exact nodup_of_map _ this
  have n2 : m.Nodup := nodup_of_map _ inv.mnd
  rw [List.perm_ext_iff_of_nodup n1 n2]
  rintro ⟨c, v⟩
  rw [inv.map, List.mem_map]
  constructor
  · rintro ⟨x, hx, e⟩
    cases e
    exact ⟨x, hx, rfl, rfl⟩
  · rintro ⟨x, hx, rfl, rfl⟩
    exact ⟨x, hx, rfl⟩

theorem HInv.size_eq (inv : HInv h0 h K cls H t es m) : t.size = m.length := by
  rw [inv.size, ← inv.entries_perm.length_eq, List.length_map]

end Pscm
