import Verif.HashSpec
import Verif.AlistLemmas
/-! # Hash tables: the representation invariant -/
namespace Pscm
open Spec

variable {κ : Type} [DecidableEq κ]

/-- A family behaves on the keys `K` like comparison of classes, in every heap that extends `h0`. -/
structure GoodFam (fam : Fam) (h0 : Heap) (K : Obj → Prop) (cls : Obj → κ) (H : κ → Nat) : Prop where
  hash : ∀ h, Ext h0 h → ∀ k, K k → fam.hash h k = .ok (H (cls k))
  cmp : ∀ h, Ext h0 h → ∀ k k', K k → K k' → fam.cmp h k k' = .ok (decide (cls k = cls k'))

/-- An entry of a table: the addresses of its two nodes, the key and the value. -/
structure Ent where
  e : Addr
  b : Addr
  key : Obj
  v : Obj

structure EntOk (h0 h : Heap) (K : Obj → Prop) (cls : Obj → κ) (H : κ → Nat) (cap i : Nat) (x : Ent) : Prop where
  k : K x.key
  idx : H (cls x.key) % cap = i
  ge : h0.nodes.length ≤ x.e
  gb : h0.nodes.length ≤ x.b
  ne : h.nodes[x.e]? = some ⟨x.key, some x.b, false⟩
  nb : h.nodes[x.b]? = some ⟨x.v, none, true⟩

structure HInv (h0 h : Heap) (K : Obj → Prop) (cls : Obj → κ) (H : κ → Nat) (t : HT) (es : List (List Ent))
    (m : List (κ × Obj)) : Prop where
  ext : Ext h0 h
  cap : 0 < t.cap
  len : es.length = t.cap
  bk : t.buckets = es.map (·.map Ent.e)
  ent : ∀ i b x, es[i]? = some b → x ∈ b → EntOk h0 h K cls H t.cap i x
  sep : ∀ x ∈ es.flatten, ∀ y ∈ es.flatten, (x.e = y.e → x = y) ∧ (x.b = y.b → x = y) ∧ x.e ≠ y.b
  nd : ∀ b ∈ es, (b.map (fun x => cls x.key)).Nodup
  size : t.size = es.flatten.length
  map : ∀ c v, (c, v) ∈ m ↔ ∃ x ∈ es.flatten, cls x.key = c ∧ x.v = v
  mnd : (m.map (·.1)).Nodup

theorem mem_flatten_iff {α : Type} {es : List (List α)} {x : α} : x ∈ es.flatten ↔ ∃ (i : Nat) (b : List α), es[i]? = some b ∧ x ∈ b := by
  rw [List.mem_flatten]
  constructor
  · rintro ⟨b, hb, hx⟩
    obtain ⟨i, hi, rfl⟩ := List.mem_iff_getElem.1 hb
    exact ⟨i, es[i], by simp, hx⟩
  · rintro ⟨i, b, hi, hx⟩
    exact ⟨b, List.mem_of_getElem? hi, hx⟩

theorem mem_flatten_set {α : Type} {es : List (List α)} {i : Nat} {b b' : List α} (hi : es[i]? = some b) {x : α} :
    x ∈ (es.set i b').flatten ↔ x ∈ b' ∨ ∃ (j : Nat) (c : List α), j ≠ i ∧ es[j]? = some c ∧ x ∈ c := by
  rw [mem_flatten_iff]
  have hlt := getElem?_lt hi
  constructor
  · rintro ⟨j, c, hj, hx⟩
    by_cases hij : i = j
    · subst hij
      rw [List.getElem?_set_self hlt] at hj
      cases hj; exact .inl hx
    · rw [List.getElem?_set_ne hij] at hj
      exact .inr ⟨j, c, fun e => hij e.symm, hj, hx⟩
  · rintro (hx | ⟨j, c, hj, hc, hx⟩)
    · exact ⟨i, b', by rw [List.getElem?_set_self hlt], hx⟩
    · exact ⟨j, c, by rw [List.getElem?_set_ne (Ne.symm hj)]; exact hc, hx⟩

theorem length_flatten_set {α : Type} : ∀ {es : List (List α)} {i : Nat} {b b' : List α}, es[i]? = some b →
    (es.set i b').flatten.length + b.length = es.flatten.length + b'.length
  | [], i, b, b', hi => by simp at hi
  | c :: es, 0, b, b', hi => by
    simp at hi; subst hi
    simp; omega
  | c :: es, i + 1, b, b', hi => by
    have := length_flatten_set (es := es) (i := i) (b := b) (b' := b') (by simpa using hi)
    simp at this ⊢; omega

theorem mem_mset {m : List (κ × Obj)} {c c' : κ} {v v' : Obj} :
    (c', v') ∈ mset m c v ↔ (c' = c ∧ v' = v) ∨ (c' ≠ c ∧ (c', v') ∈ m) := by
  simp only [mset, mremove, List.mem_cons, Prod.mk.injEq, List.mem_filter, decide_eq_true_eq]
  constructor
  · rintro (h | ⟨h1, h2⟩)
    · exact .inl h
    · exact .inr ⟨h2, h1⟩
  · rintro (h | ⟨h1, h2⟩)
    · exact .inl h
    · exact .inr ⟨h2, h1⟩

theorem nodup_mremove {m : List (κ × Obj)} (h : (m.map (·.1)).Nodup) (c : κ) : ((mremove m c).map (·.1)).Nodup :=
  (List.Sublist.map _ List.filter_sublist).nodup h

theorem nodup_mset {m : List (κ × Obj)} (h : (m.map (·.1)).Nodup) (c : κ) (v : Obj) : ((mset m c v).map (·.1)).Nodup := by
  simp only [mset, List.map_cons, List.nodup_cons]
  refine ⟨?_, nodup_mremove h c⟩
  simp [mremove]

theorem mget_mem {m : List (κ × Obj)} (h : (m.map (·.1)).Nodup) {c : κ} {v : Obj} : mget m c = some v ↔ (c, v) ∈ m := by
  induction m with
  | nil => simp [mget]
  | cons x m ih =>
    obtain ⟨d, w⟩ := x
    simp only [List.map_cons, List.nodup_cons] at h
    unfold mget at ih ⊢
    simp only [List.find?_cons, List.mem_cons, Prod.mk.injEq]
    by_cases hd : d = c
    · subst hd
      simp only [decide_true, Option.map_some, Option.some.injEq]
      constructor
      · intro e; exact .inl ⟨trivial, e.symm⟩
      · rintro (⟨-, e⟩ | e)
        · exact e.symm
        · exact absurd (List.mem_map.2 ⟨_, e, rfl⟩) h.1
    · simp only [hd, decide_false]
      rw [ih h.2]
      constructor
      · intro e; exact .inr e
      · rintro (⟨e, -⟩ | e)
        · exact absurd e.symm hd
        · exact e

section
variable {fam : Fam} {h0 h : Heap} {K : Obj → Prop} {cls : Obj → κ} {H : κ → Nat} {t : HT} {es : List (List Ent)}
  {m : List (κ × Obj)}

/-- The bucket of a class. -/
theorem HInv.bucket (inv : HInv h0 h K cls H t es m) (c : κ) : ∃ b, es[H c % t.cap]? = some b ∧
    t.buckets[H c % t.cap]? = some (b.map Ent.e) ∧ ∀ x, x ∈ es.flatten → cls x.key = c → x ∈ b := by
  have hlt : H c % t.cap < es.length := by rw [inv.len]; exact Nat.mod_lt _ inv.cap
  refine ⟨es[H c % t.cap], by simp [hlt], ?_, ?_⟩
  · rw [inv.bk]; simp [hlt]
  · intro x hx hc
    obtain ⟨i, b, hi, hb⟩ := mem_flatten_iff.1 hx
    have := (inv.ent i b x hi hb).idx
    rw [hc] at this
    subst this
    rw [List.getElem?_eq_getElem hlt] at hi
    cases hi; exact hb

theorem findEntry_spec (gf : GoodFam fam h0 K cls H) (he : Ext h0 h) {key : Obj} (hk : K key) {cap i : Nat} :
    ∀ (b : List Ent), (∀ x ∈ b, EntOk h0 h K cls H cap i x) →
    findEntry fam key (b.map Ent.e) h = (.ok ((b.find? (fun x => decide (cls key = cls x.key))).map Ent.e), h)
  | [], _ => rfl
  | x :: b, hb => by
    have hx := hb x (by simp)
    simp only [List.map_cons, findEntry]
    rw [M.bind_ok (getNode_ok hx.ne), M.bind_ok (x := M.read _) (h' := h) (a := decide (cls key = cls x.key))
      (by simp [gf.cmp h he key x.key hk hx.k])]
    by_cases hc : cls key = cls x.key
    · simp [hc]
    · simp only [hc, decide_false, List.find?_cons]
      exact findEntry_spec gf he hk b (fun y hy => hb y (by simp [hy]))

theorem bucketIdx_spec (gf : GoodFam fam h0 K cls H) (inv : HInv h0 h K cls H t es m) {key : Obj} (hk : K key) :
    bucketIdx fam t key h = (.ok (H (cls key) % t.cap), h) := by
  unfold bucketIdx
  rw [M.bind_ok (x := M.read _) (h' := h) (a := H (cls key)) (by simp [gf.hash h inv.ext key hk])]
  rw [if_neg (by have := inv.cap; omega)]
  rfl

theorem bucketAt_spec {i : Nat} {b : List Addr} (hb : t.buckets[i]? = some b) : bucketAt t i h = (.ok b, h) := by
  simp [bucketAt, hb]

/-- The entry found for a class, or none. -/
theorem HInv.lookup (inv : HInv h0 h K cls H t es m) {key : Obj} {b : List Ent}
    (hb : es[H (cls key) % t.cap]? = some b) (hall : ∀ x, x ∈ es.flatten → cls x.key = cls key → x ∈ b) :
    match b.find? (fun x => decide (cls key = cls x.key)) with
    | some x => x ∈ es.flatten ∧ x ∈ b ∧ cls x.key = cls key ∧ mget m (cls key) = some x.v
    | none => mget m (cls key) = none ∧ ∀ x ∈ es.flatten, cls x.key ≠ cls key := by
  cases hf : b.find? (fun x => decide (cls key = cls x.key)) with
  | some x =>
    have hx := List.mem_of_find?_eq_some hf
    have hc : cls key = cls x.key := by simpa using List.find?_some hf
    have hfl : x ∈ es.flatten := mem_flatten_iff.2 ⟨_, b, hb, hx⟩
    exact ⟨hfl, hx, hc.symm, (mget_mem inv.mnd).2 ((inv.map _ _).2 ⟨x, hfl, hc.symm, rfl⟩)⟩
  | none =>
    have hno : ∀ x ∈ es.flatten, cls x.key ≠ cls key := by
      intro x hx hc
      have := List.find?_eq_none.1 hf x (hall x hx hc)
      simp [hc] at this
    refine ⟨?_, hno⟩
    cases hg : mget m (cls key) with
    | none => rfl
    | some v =>
      obtain ⟨x, hx, hc, -⟩ := (inv.map _ _).1 ((mget_mem inv.mnd).1 hg)
      exact absurd hc (hno x hx)

theorem Spec.Ext.set_node {h0 h : Heap} (he : Ext h0 h) {a : Addr} {n : Node} (ha : h0.nodes.length ≤ a) :
    Ext h0 { h with nodes := h.nodes.set a n } :=
  ⟨fun b hb => by
    show (h.nodes.set a n)[b]? = _
    rw [List.getElem?_set_ne (by omega)]; exact he.nodes b hb, by simpa using he.len, he.vecs, he.strs, he.ids⟩

/-- Storing a value in an existing entry. -/
theorem HInv.update (inv : HInv h0 h K cls H t es m) {x : Ent} (hx : x ∈ es.flatten) (v : Obj) :
    ∃ h' es', updateEntry x.e v h = (.ok (), h') ∧ HInv h0 h' K cls H t es' (mset m (cls x.key) v) ∧
      ({ x with v := v } : Ent) ∈ es'.flatten := by
  obtain ⟨i, b, hi, hb⟩ := mem_flatten_iff.1 hx
  have hok := inv.ent i b x hi hb
  let f : Ent → Ent := fun y => if y.e = x.e then { y with v := v } else y
  have fe : ∀ y, (f y).e = y.e := by intro y; simp only [f]; split <;> rfl
  have fb : ∀ y, (f y).b = y.b := by intro y; simp only [f]; split <;> rfl
  have fk : ∀ y, (f y).key = y.key := by intro y; simp only [f]; split <;> rfl
  have hblt := getElem?_lt hok.nb
  refine ⟨{ h with nodes := h.nodes.set x.b ⟨v, none, true⟩ }, es.map (·.map f), ?_, ?_, ?_⟩
  · unfold updateEntry
    rw [M.bind_ok (getNode_ok hok.ne)]
    simp only
    rw [M.bind_ok (getNode_ok hok.nb)]
    simp [setNode, hblt]
  · have hfl : (es.map (·.map f)).flatten = es.flatten.map f := by rw [List.map_flatten]
    refine ⟨inv.ext.set_node hok.gb, inv.cap, by simpa using inv.len, ?_, ?_, ?_, ?_, ?_, ?_, nodup_mset inv.mnd _ _⟩
    · rw [inv.bk]
      simp only [List.map_map]
      apply List.map_congr_left
      intro b _
      simp only [Function.comp, List.map_map]
      apply List.map_congr_left
      intro y _
      exact (fe y).symm
    · intro j c y hj hy
      simp only [List.getElem?_map, Option.map_eq_some_iff] at hj
      obtain ⟨c', hc', rfl⟩ := hj
      obtain ⟨z, hz, rfl⟩ := List.mem_map.1 hy
      have hzok := inv.ent j c' z hc' hz
      have hzf : z ∈ es.flatten := mem_flatten_iff.2 ⟨j, c', hc', hz⟩
      refine ⟨by rw [fk]; exact hzok.k, by rw [fk]; exact hzok.idx, by rw [fe]; exact hzok.ge, by rw [fb]; exact hzok.gb, ?_, ?_⟩
      · show (h.nodes.set x.b _)[(f z).e]? = _
        rw [fe, fk, fb, List.getElem?_set_ne (Ne.symm (inv.sep z hzf x hx).2.2)]
        exact hzok.ne
      · show (h.nodes.set x.b _)[(f z).b]? = _
        rw [fb]
        by_cases hze : z.e = x.e
        · have := (inv.sep z hzf x hx).1 hze
          subst this
          rw [List.getElem?_set_self hblt]
          simp [f]
        · have hzb : x.b ≠ z.b := fun e => hze (by rw [(inv.sep z hzf x hx).2.1 e.symm])
          rw [List.getElem?_set_ne hzb]
          simp only [f, hze, if_false]
          exact hzok.nb
    · rw [hfl]
      intro y' hy' z' hz'
      obtain ⟨y, hy, rfl⟩ := List.mem_map.1 hy'
      obtain ⟨z, hz, rfl⟩ := List.mem_map.1 hz'
      rw [fe, fe, fb, fb]
      have := inv.sep y hy z hz
      exact ⟨fun e => by rw [this.1 e], fun e => by rw [this.2.1 e], this.2.2⟩
    · intro b' hb'
      obtain ⟨b, hb, rfl⟩ := List.mem_map.1 hb'
      have : (List.map f b).map (fun x => cls x.key) = b.map (fun x => cls x.key) := by
        rw [List.map_map]
        apply List.map_congr_left
        intro y _
        simp only [Function.comp, fk]
      rw [this]
      exact inv.nd b hb
    · rw [hfl, List.length_map]; exact inv.size
    · intro c w
      rw [mem_mset, inv.map, hfl]
      constructor
      · rintro (⟨rfl, rfl⟩ | ⟨hc, y, hy, hyc, hyv⟩)
        · exact ⟨f x, List.mem_map.2 ⟨x, hx, rfl⟩, by rw [fk], by simp [f]⟩
        · refine ⟨f y, List.mem_map.2 ⟨y, hy, rfl⟩, by rw [fk]; exact hyc, ?_⟩
          have : y.e ≠ x.e := fun e => hc (by rw [← hyc, (inv.sep y hy x hx).1 e])
          simp [f, this, hyv]
      · rintro ⟨y', hy', hyc, hyv⟩
        obtain ⟨y, hy, rfl⟩ := List.mem_map.1 hy'
        rw [fk] at hyc
        by_cases hye : y.e = x.e
        · left
          have := (inv.sep y hy x hx).1 hye
          subst this
          exact ⟨hyc.symm, by rw [← hyv]; simp [f]⟩
        · right
          refine ⟨?_, y, hy, hyc, by simpa [f, hye] using hyv⟩
          intro e
          apply hye
          -- entries with the same class are in the same bucket, hence the same entry
          obtain ⟨j, c', hj, hyc'⟩ := mem_flatten_iff.1 hy
          have hyok := inv.ent j c' y hj hyc'
          have hcc : cls y.key = cls x.key := by rw [hyc, e]
          have hji : j = i := by rw [← hyok.idx, ← hok.idx, hcc]
          subst hji
          rw [hi] at hj
          cases hj
          have hnd := inv.nd b (List.mem_of_getElem? hi)
          obtain ⟨p, hp, rfl⟩ := List.mem_iff_getElem.1 hyc'
          obtain ⟨q, hq, rfl⟩ := List.mem_iff_getElem.1 hb
          have : p = q := by
            have hp' : p < (b.map (fun x : Ent => cls x.key)).length := by simpa using hp
            have hq' : q < (b.map (fun x : Ent => cls x.key)).length := by simpa using hq
            exact (List.getElem_inj (h₀ := hp') (h₁ := hq') hnd).1 (by simpa using hcc)
          subst this; rfl
  · rw [mem_flatten_iff]
    refine ⟨i, b.map f, by simp [hi], List.mem_map.2 ⟨x, hb, by simp [f]⟩⟩

/-- Inserting a new entry. -/
theorem HInv.insert (inv : HInv h0 h K cls H t es m) {key : Obj} (hk : K key) (v : Obj)
    (hno : ∀ x ∈ es.flatten, cls x.key ≠ cls key) :
    ∃ h' es' o t', insertEntry t (H (cls key) % t.cap) key v h = (.ok (o, t'), h') ∧
      HInv h0 h' K cls H t' es' (mset m (cls key) v) ∧ PairOf h' o key v ∧ t'.cap = t.cap := by
  obtain ⟨b, hb, hbk, hall⟩ := inv.bucket (cls key)
  let L := h.nodes.length
  let x : Ent := ⟨L, L + 1, key, v⟩
  let h1 : Heap := { h with nodes := h.nodes ++ [(⟨key, some (L + 1), false⟩ : Node), ⟨v, none, true⟩], nextId := h.nextId + 1 }
  have hext : Ext h h1 := ext_push2 h _ _ (by omega)
  have hnx : h1.nodes[L]? = some ⟨key, some (L + 1), false⟩ := by simp [h1, L]
  have hny : h1.nodes[L + 1]? = some ⟨v, none, true⟩ := by simp [h1, L]
  have hL : h0.nodes.length ≤ L := inv.ext.len
  refine ⟨h1, es.set (H (cls key) % t.cap) (x :: b), ⟨h.nextId, .list L⟩,
    { t with buckets := t.buckets.set (H (cls key) % t.cap) (L :: b.map Ent.e), size := t.size + 1 }, ?_, ?_, ?_, rfl⟩
  · simp only [insertEntry, makeList]
    rw [M.bind_ok (h := h) (a := L) (h' := { h with nodes := h.nodes ++ [⟨key, none, false⟩] }) rfl]
    rw [M.bind_ok (a := L + 1) (h' := { h with nodes := h.nodes ++ [(⟨key, none, false⟩ : Node), ⟨v, none, true⟩] })
      (by simp [allocNode, L])]
    rw [M.bind_ok (a := ()) (h' := { h with nodes := h.nodes ++ [(⟨key, some (L + 1), false⟩ : Node), ⟨v, none, true⟩] })
      (by simp [setNode, L])]
    rw [M.bind_ok (bucketAt_spec hbk)]
    rfl
  · refine ⟨inv.ext.trans hext, inv.cap, by simpa using inv.len, ?_, ?_, ?_, ?_, ?_, ?_, nodup_mset inv.mnd _ _⟩
    · show t.buckets.set _ _ = _
      rw [inv.bk, List.map_set]
      rfl
    · intro j c y hj hy
      have lift : ∀ {j c y}, es[j]? = some c → y ∈ c → EntOk h0 h1 K cls H t.cap j y := by
        intro j c y hj hy
        have := inv.ent j c y hj hy
        exact ⟨this.k, this.idx, this.ge, this.gb, hext.get this.ne, hext.get this.nb⟩
      by_cases hij : H (cls key) % t.cap = j
      · subst hij
        rw [List.getElem?_set_self (getElem?_lt hb)] at hj
        cases hj
        rcases List.mem_cons.1 hy with rfl | hy
        · exact ⟨hk, rfl, hL, by show _ ≤ L + 1; omega, hnx, hny⟩
        · exact lift hb hy
      · rw [List.getElem?_set_ne hij] at hj
        exact lift hj hy
    · have old : ∀ y ∈ es.flatten, y.e < L ∧ y.b < L := by
        intro y hy
        obtain ⟨j, c, hj, hc⟩ := mem_flatten_iff.1 hy
        have := inv.ent j c y hj hc
        exact ⟨getElem?_lt this.ne, getElem?_lt this.nb⟩
      have split : ∀ y, y ∈ (es.set (H (cls key) % t.cap) (x :: b)).flatten → y = x ∨ y ∈ es.flatten := by
        intro y hy
        rcases (mem_flatten_set hb).1 hy with hy | ⟨j, c, -, hj, hc⟩
        · rcases List.mem_cons.1 hy with rfl | hy
          · exact .inl rfl
          · exact .inr (mem_flatten_iff.2 ⟨_, b, hb, hy⟩)
        · exact .inr (mem_flatten_iff.2 ⟨j, c, hj, hc⟩)
      intro y hy z hz
      have xe : x.e = L := rfl
      have xb : x.b = L + 1 := rfl
      rcases split y hy with rfl | hy
      · rcases split z hz with rfl | hz
        · exact ⟨fun _ => rfl, fun _ => rfl, by rw [xe, xb]; omega⟩
        · have := old z hz
          exact ⟨fun e => by rw [xe] at e; omega, fun e => by rw [xb] at e; omega, by rw [xe]; omega⟩
      · rcases split z hz with rfl | hz
        · have := old y hy
          exact ⟨fun e => by rw [xe] at e; omega, fun e => by rw [xb] at e; omega, by rw [xb]; omega⟩
        · exact inv.sep y hy z hz
    · intro c hc
      rcases List.mem_or_eq_of_mem_set hc with hc | rfl
      · exact inv.nd c hc
      · simp only [List.map_cons, List.nodup_cons]
        refine ⟨?_, inv.nd b (List.mem_of_getElem? hb)⟩
        intro hm
        obtain ⟨y, hy, hyc⟩ := List.mem_map.1 hm
        exact hno y (mem_flatten_iff.2 ⟨_, b, hb, hy⟩) hyc
    · have := length_flatten_set (b' := x :: b) hb
      have := inv.size
      show t.size + 1 = _
      simp only [List.length_cons] at *
      omega
    · intro c w
      rw [mem_mset, inv.map]
      constructor
      · rintro (⟨rfl, rfl⟩ | ⟨hc, y, hy, hyc, hyv⟩)
        · exact ⟨x, (mem_flatten_set hb).2 (.inl (by simp)), rfl, rfl⟩
        · refine ⟨y, (mem_flatten_set hb).2 ?_, hyc, hyv⟩
          obtain ⟨j, d, hj, hd⟩ := mem_flatten_iff.1 hy
          by_cases hij : j = H (cls key) % t.cap
          · subst hij; rw [hb] at hj; cases hj; exact .inl (by simp [hd])
          · exact .inr ⟨j, d, hij, hj, hd⟩
      · rintro ⟨y, hy, hyc, hyv⟩
        rcases (mem_flatten_set hb).1 hy with hy | ⟨j, d, hij, hj, hd⟩
        · rcases List.mem_cons.1 hy with rfl | hy
          · exact .inl ⟨hyc.symm, hyv.symm⟩
          · have hf := mem_flatten_iff.2 ⟨_, b, hb, hy⟩
            exact .inr ⟨fun e => hno y hf (by rw [hyc, e]), y, hf, hyc, hyv⟩
        · have hf := mem_flatten_iff.2 ⟨j, d, hj, hd⟩
          exact .inr ⟨fun e => hno y hf (by rw [hyc, e]), y, hf, hyc, hyv⟩
  · exact ⟨L, _, rfl, hnx, rfl, _, hny, by simp⟩

theorem removeFrom_spec (gf : GoodFam fam h0 K cls H) (he : Ext h0 h) {key : Obj} (hk : K key) {cap i : Nat} :
    ∀ (b : List Ent), (∀ x ∈ b, EntOk h0 h K cls H cap i x) → (b.map (fun x => cls x.key)).Nodup →
    removeFrom fam key (b.map Ent.e) h =
      (.ok (if b.any (fun x => decide (cls key = cls x.key)) then
        some ((b.filter (fun x => decide (cls key ≠ cls x.key))).map Ent.e) else none), h)
  | [], _, _ => rfl
  | x :: b, hb, hnd => by
    have hx := hb x (by simp)
    simp only [List.map_cons, List.nodup_cons] at hnd
    simp only [List.map_cons, removeFrom]
    rw [M.bind_ok (getNode_ok hx.ne), M.bind_ok (x := M.read _) (h' := h) (a := decide (cls key = cls x.key))
      (by simp [gf.cmp h he key x.key hk hx.k])]
    by_cases hc : cls key = cls x.key
    · have hb' : b.filter (fun x => decide (cls key ≠ cls x.key)) = b := by
        rw [List.filter_eq_self]
        intro y hy
        simp only [ne_eq, decide_eq_true_eq]
        intro e
        exact hnd.1 (List.mem_map.2 ⟨y, hy, by rw [← e, hc]⟩)
      have : (x :: b).filter (fun x => decide (cls key ≠ cls x.key)) = b := by
        rw [List.filter_cons_of_neg (by simp [hc]), hb']
      rw [this]
      simp [hc]
    · simp only [hc, decide_false, Bool.false_eq_true, if_false]
      rw [M.bind_ok (removeFrom_spec gf he hk b (fun y hy => hb y (by simp [hy])) hnd.2)]
      rw [List.filter_cons_of_pos (by simp [hc])]
      simp only [List.any_cons, hc, decide_false, Bool.false_or, List.map_cons]
      split <;> rfl

end
end Pscm
