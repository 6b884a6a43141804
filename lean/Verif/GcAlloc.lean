import Verif.GcSweep
/-! # Lemmas about allocation -/
namespace Pscm.Gc

theorem roundUp_spec {n k : Nat} (hk : 0 < k) : n ≤ roundUp n k ∧ roundUp n k % k = 0 ∧ roundUp n k < n + k := by
  unfold roundUp
  have h1 := Nat.div_add_mod (n + k - 1) k
  have h2 := Nat.mod_lt (n + k - 1) hk
  have h3 : (n + k - 1) / k * k = k * ((n + k - 1) / k) := Nat.mul_comm _ _
  exact ⟨by omega, Nat.mul_mod_left _ _, by omega⟩

theorem roundUp_eq {n : Nat} (h : n % 16 = 0) : roundUp n 16 = n := by
  unfold roundUp; omega

theorem Tiled.snoc {hdr p e l} {d : Hdr} (t : Tiled hdr p e l) (hd : hdr e = some d) : Tiled hdr p (e + (16 + d.size)) (l ++ [e]) := by
  induction t with
  | nil => exact .cons hd .nil
  | cons hd' _ ih => exact .cons hd' (ih hd)

theorem Tiled.mono {hdr hdr' : Nat → Option Hdr} (hs : ∀ a d, hdr a = some d → ∃ d', hdr' a = some d' ∧ d'.size = d.size) {p e l}
    (t : Tiled hdr p e l) : Tiled hdr' p e l := by
  induction t with
  | nil => exact .nil
  | cons hd _ ih =>
    obtain ⟨d', h1, h2⟩ := hs _ _ hd
    exact .cons h1 (by rw [h2]; exact ih)

/-- A block is put at the end of the current segment. -/
theorem bump_layout {h : Heap} (L : Layout h) {tag size : Nat} (hsz : OkSize size) (hn : need tag ≤ size)
    (hroom : h.cur.bump + (16 + size) ≤ h.cur.start + h.cur.size) {h' : Heap} {p : Nat} (hp : p = h.cur.bump)
    (hhdr : ∀ a, h'.hdr a = if a = p then some ⟨false, tag, size⟩ else h.hdr a) (hold : h'.old = h.old)
    (hcur : h'.cur = { h.cur with bump := h.cur.bump + (16 + size) }) (hlo : h'.lo = h.lo) (hhi : h'.hi = h.hi) :
    Layout h' ∧ h.hdr p = none := by
  have hcs : h.cur ∈ h.segs := by unfold Heap.segs; simp
  have hmod := hsz.mod
  have hnone : h.hdr p = none := by
    cases hd : h.hdr p with
    | none => rfl
    | some d =>
      obtain ⟨s, hs, l, t, ha⟩ := L.only p d hd
      obtain ⟨b1, _, d', hd', b2⟩ := t.mem_bounds L.okSize p ha
      rw [hd] at hd'; cases hd'
      by_cases he : s = h.cur
      · subst he; omega
      · have := pairwise_ne L.disj (fun _ _ h => h.symm) hs hcs he
        have g := L.seg s hs
        obtain ⟨l0, t0⟩ := L.tiled h.cur hcs
        have := t0.le
        omega
  have hmono : ∀ a d, h.hdr a = some d → ∃ d', h'.hdr a = some d' ∧ d'.size = d.size := by
    intro a d hd
    refine ⟨d, ?_, rfl⟩
    rw [hhdr, if_neg]
    · exact hd
    · rintro rfl; rw [hnone] at hd; cases hd
  have hsegs : h'.segs = h.old ++ [{ h.cur with bump := h.cur.bump + (16 + size) }] := by unfold Heap.segs; rw [hold, hcur]
  have hin : ∀ s, s ∈ h'.segs → s ∈ h.old ∨ s = { h.cur with bump := h.cur.bump + (16 + size) } := by
    intro s hs; rw [hsegs] at hs; simpa using hs
  have hino : ∀ s, s ∈ h.old → s ∈ h.segs := fun s hs => by unfold Heap.segs; simp [hs]
  obtain ⟨l0, t0⟩ := L.tiled h.cur hcs
  have tcur : Tiled h'.hdr h.cur.start (h.cur.bump + (16 + size)) (l0 ++ [p]) := by
    have := (t0.mono hmono).snoc (d := ⟨false, tag, size⟩) (by rw [hhdr, if_pos hp.symm])
    rw [hp]; exact this
  have g := L.seg h.cur hcs
  refine ⟨⟨fun s hs => ?_, ?_, fun s hs => ?_, fun a d hd => ?_, fun a d hd => ?_⟩, hnone⟩
  · rw [hlo, hhi]
    rcases hin s hs with hs | rfl
    · exact L.seg s (hino s hs)
    · refine ⟨g.1, ?_, ?_, g.2.2.2.1, g.2.2.2.2.1, g.2.2.2.2.2⟩
      · show (h.cur.bump + (16 + size)) % 16 = 0; omega
      · exact hroom
  · rw [hsegs]
    have := L.disj
    unfold Heap.segs at this
    rw [List.pairwise_append] at this ⊢
    refine ⟨this.1, by simp, fun a ha b hb => ?_⟩
    rw [List.mem_singleton] at hb
    subst hb
    exact this.2.2 a ha h.cur (by simp)
  · rcases hin s hs with hs | rfl
    · obtain ⟨l, t⟩ := L.tiled s (hino s hs)
      exact ⟨l, t.mono hmono⟩
    · exact ⟨_, tcur⟩
  · rw [hhdr] at hd
    by_cases ha : a = p
    · refine ⟨{ h.cur with bump := h.cur.bump + (16 + size) }, ?_, _, tcur, by simp [ha]⟩
      rw [hsegs]; simp
    · rw [if_neg ha] at hd
      obtain ⟨s, hs, l, t, hal⟩ := L.only a d hd
      by_cases he : s = h.cur
      · subst he
        refine ⟨{ h.cur with bump := h.cur.bump + (16 + size) }, by rw [hsegs]; simp, _, tcur, ?_⟩
        cases t.unique t0 L.okSize
        simp [hal]
      · have : s ∈ h.old := by
          unfold Heap.segs at hs
          simpa [he] using hs
        exact ⟨s, by rw [hsegs]; simp [this], l, t.mono hmono, hal⟩
  · rw [hhdr] at hd
    by_cases ha : a = p
    · rw [if_pos ha] at hd; cases hd; exact ⟨hsz, hn⟩
    · rw [if_neg ha] at hd; exact L.size a d hd

/-- A block is put at the start of a new segment. -/
theorem grow_layout {h : Heap} (L : Layout h) {tag size page grow : Nat} (hsz : OkSize size) (hn : need tag ≤ size) (hgrow : 16 + size ≤ grow)
    (hfresh : FreshAt h page grow) {h' : Heap}
    (hhdr : ∀ a, h'.hdr a = if a = page then some ⟨false, tag, size⟩ else h.hdr a) (hold : h'.old = h.segs)
    (hcur : h'.cur = ⟨page, grow, page + (16 + size)⟩) (hlo : h'.lo = if page < h.lo then page else h.lo)
    (hhi : h'.hi = if page + grow > h.hi then page + grow else h.hi) :
    Layout h' ∧ h.hdr page = none := by
  have hmod := hsz.mod
  obtain ⟨f1, f2, f3⟩ := hfresh
  have hnone : h.hdr page = none := by
    cases hd : h.hdr page with
    | none => rfl
    | some d =>
      obtain ⟨s, hs, h1, h2, h3, h4, h5, h6, h7⟩ := L.block hd
      have := f3 s hs
      omega
  have hmono : ∀ a d, h.hdr a = some d → ∃ d', h'.hdr a = some d' ∧ d'.size = d.size := by
    intro a d hd
    refine ⟨d, ?_, rfl⟩
    rw [hhdr, if_neg]
    · exact hd
    · rintro rfl; rw [hnone] at hd; cases hd
  have hsegs : h'.segs = h.segs ++ [⟨page, grow, page + (16 + size)⟩] := by unfold Heap.segs; rw [hold, hcur]; rfl
  have hin : ∀ s, s ∈ h'.segs → s ∈ h.segs ∨ s = ⟨page, grow, page + (16 + size)⟩ := by
    intro s hs; rw [hsegs] at hs; simpa using hs
  have tcur : Tiled h'.hdr page (page + (16 + size)) [page] := .cons (d := ⟨false, tag, size⟩) (by rw [hhdr, if_pos rfl]) .nil
  refine ⟨⟨fun s hs => ?_, ?_, fun s hs => ?_, fun a d hd => ?_, fun a d hd => ?_⟩, hnone⟩
  · rw [hlo, hhi]
    rcases hin s hs with hs | rfl
    · obtain ⟨g1, g2, g3, g4, g5, g6⟩ := L.seg s hs
      refine ⟨g1, g2, g3, g4, ?_, ?_⟩
      · split <;> omega
      · split <;> omega
    · refine ⟨f1, ?_, ?_, f2, ?_, ?_⟩
      · show (page + (16 + size)) % 16 = 0; omega
      · show page + (16 + size) ≤ page + grow; omega
      · show (if page < h.lo then page else h.lo) ≤ page
        split <;> omega
      · show page + grow ≤ _
        split <;> omega
  · rw [hsegs, List.pairwise_append]
    refine ⟨L.disj, by simp, fun a ha b hb => ?_⟩
    rw [List.mem_singleton] at hb
    subst hb
    have := f3 a ha
    show a.start + a.size ≤ page ∨ page + grow ≤ a.start
    omega
  · rcases hin s hs with hs | rfl
    · obtain ⟨l, t⟩ := L.tiled s hs
      exact ⟨l, t.mono hmono⟩
    · exact ⟨_, tcur⟩
  · rw [hhdr] at hd
    by_cases ha : a = page
    · exact ⟨⟨page, grow, page + (16 + size)⟩, by rw [hsegs]; simp, _, tcur, by simp [ha]⟩
    · rw [if_neg ha] at hd
      obtain ⟨s, hs, l, t, hal⟩ := L.only a d hd
      exact ⟨s, by rw [hsegs]; simp [hs], l, t.mono hmono, hal⟩
  · rw [hhdr] at hd
    by_cases ha : a = page
    · rw [if_pos ha] at hd; cases hd; exact ⟨hsz, hn⟩
    · rw [if_neg ha] at hd; exact L.size a d hd

/-- What an allocation must do. -/
structure Alloc (h : Heap) (tag size : Nat) (h' : Heap) (a : Nat) : Prop where
  wf : WF h'
  /-- the block was not in use, and is now -/
  fresh : ¬ Live h a
  live : Live h' a
  hdr : ∃ bs, h'.hdr a = some ⟨false, tag, bs⟩ ∧ size ≤ bs
  zero : ∀ x, a + 16 ≤ x → x < a + 16 + size → h'.mem x = 0
  /-- the others keep their header, contents and state -/
  others : ∀ b, b ≠ a → h'.hdr b = h.hdr b ∧ (Live h b ↔ Live h' b)
  mem : ∀ x, ¬ (a + 16 ≤ x ∧ x < a + 16 + size) → h'.mem x = h.mem x
  arr : h'.arr = h.arr

theorem WF.live_of_none {h : Heap} {a : Nat} (hn : h.hdr a = none) : ¬ Live h a := by
  rintro ⟨⟨d, hd⟩, _⟩
  rw [hn] at hd; cases hd

/-- A block taken from a free list. -/
theorem reuse_alloc {h : Heap} (W : WF h) {k p : Nat} {ps fl : List Nat} {tag size : Nat} {d : Hdr} (hfl : h.free k = fl) (hp : p ∈ fl)
    (hps : ∀ a, a ∈ ps ↔ a ∈ fl ∧ a ≠ p) (hnd : ps.Nodup) (hd : h.hdr p = some d) (hs : size ≤ d.size) (hn : need tag ≤ d.size) :
    Alloc h tag size (initBlock { h with since := h.since + (16 + size), free := fun x => if x = k then ps else h.free x } p tag d.size size) p := by
  have hmk : ∀ m, h.hdr p = some m → m.mark = false := fun m hm => by
    cases hb : m.mark with
    | false => rfl
    | true => exact absurd ⟨m, hm, hb⟩ (W.clean p)
  have hpk : bucketOf d.size = k := by
    obtain ⟨d', h1, h2⟩ := W.free k p (hfl ▸ hp)
    rw [hd] at h1; cases h1; exact h2
  have hfree : ∀ x a, a ∈ (if x = k then ps else h.free x) ↔ a ∈ h.free x ∧ a ≠ p := by
    intro x a
    by_cases hx : x = k
    · subst hx; rw [if_pos rfl, hps, hfl]
    · rw [if_neg hx]
      refine ⟨fun ha => ⟨ha, ?_⟩, fun h => h.1⟩
      rintro rfl
      obtain ⟨d', h1, h2⟩ := W.free x a ha
      rw [hd] at h1; cases h1
      exact hx (h2.symm.trans hpk)
  have hsz := W.layout.size p d hd
  generalize hh' : initBlock { h with since := h.since + (16 + size), free := fun x => if x = k then ps else h.free x } p tag d.size size = h'
  have e_hdr : ∀ a, h'.hdr a = if a = p then some ⟨false, tag, d.size⟩ else h.hdr a := by rw [← hh']; intro a; rfl
  have e_free : ∀ x, h'.free x = if x = k then ps else h.free x := by rw [← hh']; intro x; rfl
  have e_mem : ∀ x, h'.mem x = if p + 16 ≤ x ∧ x < p + 16 + size then 0 else h.mem x := by rw [← hh']; intro x; rfl
  have L : Layout h' := by
    have hsize : ∀ a, (h'.hdr a).map Hdr.size = (h.hdr a).map Hdr.size := by
      intro a; rw [e_hdr]; by_cases ha : a = p
      · rw [if_pos ha, ha, hd]; rfl
      · rw [if_neg ha]
    have hseg : h'.segs = h.segs := by rw [← hh']; rfl
    have hlo : h'.lo = h.lo := by rw [← hh']; rfl
    have hhi : h'.hi = h.hi := by rw [← hh']; rfl
    refine ⟨by rw [hseg, hlo, hhi]; exact W.layout.seg, by rw [hseg]; exact W.layout.disj, ?_, ?_, ?_⟩
    · rw [hseg]
      intro s hs
      obtain ⟨l, t⟩ := W.layout.tiled s hs
      exact ⟨l, t.congr hsize⟩
    · rw [hseg]
      intro a da hda
      have : ∃ d0, h.hdr a = some d0 := by
        rw [e_hdr] at hda
        by_cases ha : a = p
        · exact ⟨d, ha ▸ hd⟩
        · rw [if_neg ha] at hda; exact ⟨_, hda⟩
      obtain ⟨d0, hd0⟩ := this
      obtain ⟨s, hs, l, t, hal⟩ := W.layout.only a d0 hd0
      exact ⟨s, hs, l, t.congr hsize, hal⟩
    · intro a da hda
      rw [e_hdr] at hda
      by_cases ha : a = p
      · rw [if_pos ha] at hda; cases hda; exact ⟨hsz.1, hn⟩
      · rw [if_neg ha] at hda; exact W.layout.size a da hda
  refine ⟨⟨L, fun a ⟨da, h1, h2⟩ => ?_, fun x a ha => ?_, fun x => ?_⟩, fun hl => hl.2 k (hfl ▸ hp), ⟨⟨_, by rw [e_hdr, if_pos rfl]⟩, fun x hx => ?_⟩,
    ⟨d.size, by rw [e_hdr, if_pos rfl], hs⟩, fun x h1 h2 => by rw [e_mem, if_pos ⟨h1, h2⟩], fun b hb => ⟨by rw [e_hdr, if_neg hb], ?_⟩,
    fun x hx => by rw [e_mem, if_neg hx], by rw [← hh']; rfl⟩
  · rw [e_hdr] at h1
    by_cases ha : a = p
    · rw [if_pos ha] at h1; cases h1; cases h2
    · rw [if_neg ha] at h1; exact W.clean a ⟨da, h1, h2⟩
  · rw [e_free, hfree] at ha
    obtain ⟨da, h1, h2⟩ := W.free x a ha.1
    exact ⟨da, by rw [e_hdr, if_neg ha.2]; exact h1, h2⟩
  · rw [e_free]
    split
    · exact hnd
    · exact W.nodup x
  · rw [e_free, hfree] at hx
    exact hx.2 rfl
  · unfold Live
    rw [e_hdr, if_neg hb]
    refine and_congr Iff.rfl (forall_congr' fun x => ?_)
    rw [e_free, hfree]
    simp [hb]

/-- A new block. -/
theorem new_alloc {h h' : Heap} (W : WF h) {p tag bs size : Nat} (L : Layout h') (hnone : h.hdr p = none)
    (e_hdr : ∀ a, h'.hdr a = if a = p then some ⟨false, tag, bs⟩ else h.hdr a) (e_free : h'.free = h.free)
    (e_mem : ∀ x, h'.mem x = if p + 16 ≤ x ∧ x < p + 16 + size then 0 else h.mem x) (e_arr : h'.arr = h.arr) (hs : size ≤ bs) :
    Alloc h tag size h' p := by
  have hnf : ∀ x, p ∉ h.free x := by
    intro x hx
    obtain ⟨d, h1, _⟩ := W.free x p hx
    rw [hnone] at h1; cases h1
  refine ⟨⟨L, fun a ⟨da, h1, h2⟩ => ?_, fun x a ha => ?_, fun x => ?_⟩, WF.live_of_none hnone, ⟨⟨_, by rw [e_hdr, if_pos rfl]⟩, fun x => ?_⟩,
    ⟨bs, by rw [e_hdr, if_pos rfl], hs⟩, fun x h1 h2 => by rw [e_mem, if_pos ⟨h1, h2⟩], fun b hb => ⟨by rw [e_hdr, if_neg hb], ?_⟩,
    fun x hx => by rw [e_mem, if_neg hx], e_arr⟩
  · rw [e_hdr] at h1
    by_cases ha : a = p
    · rw [if_pos ha] at h1; cases h1; cases h2
    · rw [if_neg ha] at h1; exact W.clean a ⟨da, h1, h2⟩
  · rw [e_free] at ha
    obtain ⟨da, h1, h2⟩ := W.free x a ha
    have hap : a ≠ p := by rintro rfl; exact hnf x ha
    exact ⟨da, by rw [e_hdr, if_neg hap]; exact h1, h2⟩
  · rw [e_free]; exact W.nodup x
  · rw [e_free]; exact hnf x
  · unfold Live
    rw [e_hdr, if_neg hb, e_free]

theorem firstFit_spec {h : Heap} {size : Nat} : ∀ {l : List Nat} {p : Nat} {ps : List Nat}, firstFit h size l = some (p, ps) →
    l.Nodup → p ∈ l ∧ (∀ a, a ∈ ps ↔ a ∈ l ∧ a ≠ p) ∧ ps.Nodup ∧ ∃ d, h.hdr p = some d ∧ size ≤ d.size
  | [], p, ps, hf, _ => by cases hf
  | b :: bs, p, ps, hf, hnd => by
    have hnd' := List.nodup_cons.1 hnd
    have later : (firstFit h size bs).map (fun (x, l) => (x, b :: l)) = some (p, ps) →
        p ∈ b :: bs ∧ (∀ a, a ∈ ps ↔ a ∈ b :: bs ∧ a ≠ p) ∧ ps.Nodup ∧ ∃ d, h.hdr p = some d ∧ size ≤ d.size := by
      intro hm
      cases hq : firstFit h size bs with
      | none => rw [hq] at hm; cases hm
      | some q =>
        obtain ⟨p', ps'⟩ := q
        rw [hq] at hm
        simp only [Option.map_some, Option.some.injEq, Prod.mk.injEq] at hm
        obtain ⟨rfl, rfl⟩ := hm
        obtain ⟨h1, h2, h3, h4⟩ := firstFit_spec hq hnd'.2
        have hbp : b ≠ p' := by rintro rfl; exact hnd'.1 h1
        refine ⟨by simp [h1], fun a => ?_, List.nodup_cons.2 ⟨fun hb => hnd'.1 ((h2 b).1 hb).1, h3⟩, h4⟩
        rw [List.mem_cons, h2, List.mem_cons]
        constructor
        · rintro (rfl | ⟨h, h'⟩)
          · exact ⟨.inl rfl, hbp⟩
          · exact ⟨.inr h, h'⟩
        · rintro ⟨rfl | h, h'⟩
          · exact .inl rfl
          · exact .inr ⟨h, h'⟩
    unfold firstFit at hf
    cases hd : h.hdr b with
    | none => rw [hd] at hf; exact later hf
    | some d =>
      rw [hd] at hf
      dsimp only at hf
      by_cases hs : size ≤ d.size
      · rw [if_pos hs] at hf
        cases hf
        refine ⟨by simp, fun a => ?_, hnd'.2, d, hd, hs⟩
        constructor
        · intro ha
          exact ⟨by simp [ha], by rintro rfl; exact hnd'.1 ha⟩
        · rintro ⟨ha, hne⟩
          rcases List.mem_cons.1 ha with rfl | ha
          · exact absurd rfl hne
          · exact ha
      · rw [if_neg hs] at hf; exact later hf

theorem classSize_ok {size : Nat} (hb : bucketOf size < 4) : size ≤ classSize (bucketOf size) ∧ OkSize (classSize (bucketOf size)) := by
  unfold bucketOf at *
  repeat' split at hb
  all_goals first | omega | skip
  all_goals
    simp only [*, if_true, if_false]
    refine ⟨?_, ?_⟩ <;> simp [classSize, OkSize] <;> omega

theorem bucket_class {n k : Nat} (hn : OkSize n) (hb : bucketOf n = k) (hk : k < 4) : n = classSize k := by
  unfold OkSize at hn
  rcases hn with rfl | rfl | rfl | rfl | ⟨h, _⟩
  · subst hb; rfl
  · subst hb; rfl
  · subst hb; rfl
  · subst hb; rfl
  · unfold bucketOf at hb
    rw [if_neg (by omega), if_neg (by omega), if_neg (by omega), if_neg (by omega)] at hb
    omega

/-- The size of the request: what the caller asks for is one of the C++ structures. -/
def GoodRequest (tag size : Nat) : Prop := need tag ≤ size ∧ (size ≤ 128 ∨ size % 16 = 0)

/-- The size of the memory block for a request. -/
def blockSize (size : Nat) : Nat := if bucketOf size < 4 then classSize (bucketOf size) else size

theorem bumpAllocate_alloc {h : Heap} (W : WF h) {tag size bs page : Nat} {h1 h' : Heap} {p : Nat} (hbs : OkSize bs) (hn : need tag ≤ bs) (hs : size ≤ bs)
    (hf : FreshAt h page (growth (16 + bs))) {h0 : Heap} (e0 : h0 = { h with since := h.since + (16 + size) })
    (hb : bumpAllocate h0 (16 + bs) page = .ok (h1, p))
    (hh : h' = initBlock h1 p tag bs size) : Alloc h tag size h' p := by
  have hmod := hbs.mod
  have hcs : h.cur ∈ h.segs := by unfold Heap.segs; simp
  have g := W.layout.seg h.cur hcs
  unfold bumpAllocate at hb
  dsimp only at hb
  have c0 : h0.cur = h.cur := by rw [e0]
  have s0 : h0.segs = h.segs := by rw [e0]; rfl
  rw [roundUp_eq (show (16 + bs) % 16 = 0 by omega), c0, roundUp_eq g.2.1] at hb
  by_cases hroom : h.cur.bump + (16 + bs) > h.cur.start + h.cur.size
  · rw [if_pos hroom] at hb
    by_cases hfull : h0.segs.length ≥ 64
    · rw [if_pos hfull] at hb; cases hb
    · rw [if_neg hfull] at hb
      cases hb
      have hg : 16 + bs ≤ growth (16 + bs) := by
        unfold growth
        generalize 4 * 1024 * 1024 = M
        have := (roundUp_spec (n := if 16 + bs > M then 16 + bs else M) (k := 4096) (by decide)).1
        refine Nat.le_trans ?_ this
        split <;> omega
      generalize growth (16 + bs) = G at *
      have := grow_layout (h' := h') W.layout hbs hn hg hf (by rw [hh, e0]; intro a; rfl) (by rw [hh, ← s0]; rfl) (by rw [hh]; rfl)
        (by rw [hh, e0]; rfl) (by rw [hh, e0]; rfl)
      refine new_alloc (bs := bs) W this.1 this.2 ?_ ?_ ?_ ?_ hs
      · rw [hh, e0]; intro a; rfl
      · rw [hh, e0]; rfl
      · rw [hh, e0]; intro x; rfl
      · rw [hh, e0]; rfl
  · rw [if_neg hroom] at hb
    cases hb
    have := bump_layout (h' := h') W.layout hbs hn (by omega) rfl (by rw [hh, e0]; intro a; rfl) (by rw [hh, e0]; rfl) (by rw [hh]; rfl)
      (by rw [hh, e0]; rfl) (by rw [hh, e0]; rfl)
    refine new_alloc (bs := bs) W this.1 this.2 ?_ ?_ ?_ ?_ hs
    · rw [hh, e0]; intro a; rfl
    · rw [hh, e0]; rfl
    · rw [hh, e0]; intro x; rfl
    · rw [hh, e0]; rfl

theorem allocate_spec {h : Heap} (W : WF h) {tag size page : Nat} {h' : Heap} {o : Nat} (hg : GoodRequest tag size)
    (hf : FreshAt h page (growth (16 + blockSize size))) (hr : allocate h tag size page = .ok (h', o)) :
    ∃ a, o = a + 16 ∧ Alloc h tag size h' a := by
  unfold allocate at hr
  dsimp only at hr
  by_cases hb : bucketOf size < 4
  · rw [if_pos hb] at hr
    have hbs : blockSize size = classSize (bucketOf size) := if_pos hb
    obtain ⟨c1, c2⟩ := classSize_ok hb
    have hnn : need tag ≤ classSize (bucketOf size) := Nat.le_trans hg.1 c1
    cases hfl : h.free (bucketOf size) with
    | cons p ps =>
      rw [hfl] at hr
      cases hr
      refine ⟨p, rfl, ?_⟩
      have hnd := W.nodup (bucketOf size)
      rw [hfl] at hnd
      have hnd' := List.nodup_cons.1 hnd
      obtain ⟨d, hd, hk⟩ := W.free (bucketOf size) p (by rw [hfl]; simp)
      have hds := bucket_class (W.layout.okSize p d hd) hk hb
      rw [← hds]
      refine reuse_alloc W hfl (by simp) (fun a => ?_) hnd'.2 hd (by rw [hds]; exact c1) (by rw [hds]; exact hnn)
      constructor
      · intro ha
        exact ⟨by simp [ha], by rintro rfl; exact hnd'.1 ha⟩
      · rintro ⟨ha, hne⟩
        rcases List.mem_cons.1 ha with rfl | ha
        · exact absurd rfl hne
        · exact ha
    | nil =>
      rw [hfl] at hr
      dsimp only at hr
      cases hq : bumpAllocate { h with since := h.since + (16 + size) } (16 + classSize (bucketOf size)) page with
      | crash => rw [hq] at hr; cases hr
      | more => rw [hq] at hr; cases hr
      | ok q =>
        obtain ⟨h1, p⟩ := q
        rw [hq] at hr
        cases hr
        exact ⟨p, rfl, bumpAllocate_alloc W c2 hnn c1 (hbs ▸ hf) rfl hq rfl⟩
  · rw [if_neg hb] at hr
    have hbs : blockSize size = size := if_neg hb
    have hbig : 128 < size := by
      unfold bucketOf at hb
      by_cases h1 : size ≤ 128
      · exfalso; apply hb; repeat' split
        all_goals first | omega | skip
      · omega
    have hok : OkSize size := by
      rcases hg.2 with h | h
      · omega
      · exact .inr (.inr (.inr (.inr ⟨hbig, h⟩)))
    cases hfit : firstFit { h with since := h.since + (16 + size) } size (h.free 4) with
    | some q =>
      obtain ⟨p, ps⟩ := q
      rw [hfit] at hr
      obtain ⟨h1, h2, h3, d, hd, hds⟩ := firstFit_spec hfit (W.nodup 4)
      have hd : h.hdr p = some d := hd
      dsimp only at hr
      rw [hd] at hr
      cases hr
      exact ⟨p, rfl, reuse_alloc W rfl h1 h2 h3 hd hds (Nat.le_trans hg.1 hds)⟩
    | none =>
      rw [hfit] at hr
      dsimp only at hr
      cases hq : bumpAllocate { h with since := h.since + (16 + size) } (16 + size) page with
      | crash => rw [hq] at hr; cases hr
      | more => rw [hq] at hr; cases hr
      | ok q =>
        obtain ⟨h1, p⟩ := q
        rw [hq] at hr
        cases hr
        exact ⟨p, rfl, bumpAllocate_alloc W hok hg.1 (Nat.le_refl _) (hbs ▸ hf) rfl hq rfl⟩

/-- A collection. -/
theorem runGc_spec {h : Heap} (W : WF h) {n : Nat} {roots : List Nat} {h' : Heap} (hr : runGc n h roots = .ok h') :
    WF h' ∧ h'.hdr = h.hdr ∧ h'.arr = h.arr ∧ h'.segs = h.segs ∧
    (∀ a, Live h' a ↔ Reach h roots a) ∧
    (∀ a d, Reach h roots a → h.hdr a = some d → ∀ x, a + 16 ≤ x → x < a + 16 + d.size → h'.mem x = h.mem x) := by
  unfold runGc at hr
  cases hm : markPhase n h roots with
  | crash => rw [hm] at hr; cases hr
  | more => rw [hm] at hr; cases hr
  | ok h1 =>
    rw [hm] at hr
    have inv := markPhase_ok W.layout W.clean hm
    have L1 := W.layout.sim inv.sim
    have S := sweepPhase_spec L1
    have W' := sweepPhase_wf L1
    obtain ⟨s1, s2, s3, s4, s5, s6, s7, s8, s9⟩ := S
    have hh : h' = { sweepPhase h1 with since := 0 } := by cases hr; rfl
    subst hh
    have hhdr : (sweepPhase h1).hdr = h.hdr := by
      funext a
      rw [s1]
      cases hd : h.hdr a with
      | none =>
        cases hd1 : h1.hdr a with
        | none => rfl
        | some d1 =>
          obtain ⟨m, hm'⟩ := inv.sim.symm.some hd1
          rw [hd] at hm'; cases hm'
      | some d =>
        obtain ⟨m, hm'⟩ := inv.sim.some hd
        rw [hm']
        have : d.mark = false := by
          cases hb : d.mark with
          | false => rfl
          | true => exact absurd ⟨d, hd, hb⟩ (W.clean a)
        simp only [Option.map_some, clear, ← this]
    refine ⟨⟨⟨W'.layout.seg, W'.layout.disj, W'.layout.tiled, W'.layout.only, W'.layout.size⟩, W'.clean, W'.free, W'.nodup⟩, hhdr,
      s4.trans inv.sim.arr, ?_, fun a => ?_, fun a d ha hd x h1' h2' => ?_⟩
    · show (sweepPhase h1).old ++ [(sweepPhase h1).cur] = _
      rw [s5, s6, inv.sim.old, inv.sim.cur]; rfl
    · have hnot : (∀ k, a ∉ (sweepPhase h1).free k) ↔ ∀ k, deadIn h1 k a ≠ true := by
        refine forall_congr' fun k => not_congr ?_
        rw [← List.count_pos_iff, s2]
        by_cases hd : deadIn h1 k a = true <;> simp [hd]
      unfold Live
      show (∃ d, (sweepPhase h1).hdr a = some d) ∧ (∀ k, a ∉ (sweepPhase h1).free k) ↔ _
      rw [hhdr, hnot, ← inv.done a]
      constructor
      · rintro ⟨⟨d, hd⟩, hk⟩
        obtain ⟨m, hm'⟩ := inv.sim.some hd
        cases m with
        | true => exact ⟨_, hm', rfl⟩
        | false =>
          have := hk (bucketOf d.size)
          unfold deadIn at this
          rw [hm'] at this
          simp at this
      · rintro ⟨d, hd, hmk⟩
        obtain ⟨m, hm'⟩ := inv.sim.symm.some hd
        refine ⟨⟨_, hm'⟩, fun k => ?_⟩
        unfold deadIn
        rw [hd]
        simp [hmk]
    · show (sweepPhase h1).mem x = _
      rw [s3, inv.sim.mem]
      intro b db hdb hmb hx
      obtain ⟨m, hm'⟩ := inv.sim.some hd
      have hne : a ≠ b := by
        rintro rfl
        rw [hm'] at hdb
        cases hdb
        obtain ⟨d2, hd2, hmk⟩ := (inv.done a).2 ha
        rw [hm'] at hd2
        cases hd2
        rw [hmk] at hmb; cases hmb
      have := L1.disjoint hm' hdb hne
      dsimp only at this
      omega

end Pscm.Gc
