import Verif.GcMark
/-! # Lemmas about the sweep phase -/
namespace Pscm.Gc

/-- Is `a` an unmarked block of bucket `k`? -/
def deadIn (h : Heap) (k a : Nat) : Bool := match h.hdr a with
  | some d => !d.mark && bucketOf d.size == k
  | none => false

/-- The mark of the header cleared. -/
def clear (d : Hdr) : Hdr := { d with mark := false }

/-- The effect of sweeping the blocks `l`. -/
structure Swept (h : Heap) (l : List Nat) (h' : Heap) : Prop where
  hdr : ∀ a, h'.hdr a = if a ∈ l then (h.hdr a).map clear else h.hdr a
  free : ∀ k a, (h'.free k).count a = (h.free k).count a + if a ∈ l ∧ deadIn h k a = true then 1 else 0
  mem : ∀ x, (∀ a ∈ l, ∀ d, h.hdr a = some d → d.mark = false → ¬ (a + 16 ≤ x ∧ x < a + 16 + d.size)) → h'.mem x = h.mem x
  arr : h'.arr = h.arr
  old : h'.old = h.old
  cur : h'.cur = h.cur
  lo : h'.lo = h.lo
  hi : h'.hi = h.hi
  since : h'.since = h.since

theorem Swept.nil (h : Heap) : Swept h [] h :=
  ⟨fun a => by simp, fun k a => by simp, fun _ _ => rfl, rfl, rfl, rfl, rfl, rfl, rfl⟩

theorem Swept.append {h h1 h2 : Heap} {l1 l2 : List Nat} (s1 : Swept h l1 h1) (s2 : Swept h1 l2 h2) (hd : ∀ a ∈ l1, a ∉ l2) :
    Swept h (l1 ++ l2) h2 := by
  have keep : ∀ a ∈ l2, h1.hdr a = h.hdr a := fun a ha => by
    rw [s1.hdr, if_neg fun h => hd a h ha]
  refine ⟨fun a => ?_, fun k a => ?_, fun x hx => ?_, s2.arr.trans s1.arr, s2.old.trans s1.old, s2.cur.trans s1.cur, s2.lo.trans s1.lo,
    s2.hi.trans s1.hi, s2.since.trans s1.since⟩
  · rw [s2.hdr]
    by_cases h1' : a ∈ l1
    · rw [if_neg (hd a h1'), s1.hdr, if_pos h1', if_pos (by simp [h1'])]
    · by_cases h2' : a ∈ l2
      · rw [if_pos h2', keep a h2', if_pos (by simp [h2'])]
      · rw [if_neg h2', s1.hdr, if_neg h1', if_neg (by simp [h1', h2'])]
  · rw [s2.free, s1.free]
    by_cases h1' : a ∈ l1
    · simp [h1', hd a h1']
    · by_cases h2' : a ∈ l2
      · have : deadIn h1 k a = deadIn h k a := by unfold deadIn; rw [keep a h2']
        simp [h1', h2', this]
      · simp [h1', h2']
  · rw [s2.mem, s1.mem]
    · exact fun a ha d hd => hx a (by simp [ha]) d hd
    · exact fun a ha d hd => hx a (by simp [ha]) d (by rw [← keep a ha]; exact hd)

theorem setWord_other {h : Heap} {a v x : Nat} (hx : x ≠ a) : (setWord h a v).mem x = h.mem x := by
  unfold setWord; simp [hx]

theorem sweepObj_same (h : Heap) (tag o : Nat) :
    (sweepObj h tag o).hdr = h.hdr ∧ (sweepObj h tag o).free = h.free ∧ (sweepObj h tag o).arr = h.arr ∧ (sweepObj h tag o).old = h.old ∧
    (sweepObj h tag o).cur = h.cur ∧ (sweepObj h tag o).lo = h.lo ∧ (sweepObj h tag o).hi = h.hi ∧ (sweepObj h tag o).since = h.since := by
  unfold sweepObj
  repeat' split
  all_goals exact ⟨rfl, rfl, rfl, rfl, rfl, rfl, rfl, rfl⟩

theorem sweepObj_mem (h : Heap) (tag o x : Nat) (hx : ¬ (o ≤ x ∧ x < o + need tag)) : (sweepObj h tag o).mem x = h.mem x := by
  have one : ∀ off, off < need tag → x ≠ o + off := fun off ho he => hx (by omega)
  unfold sweepObj
  by_cases t0 : tag = SCMt
  · rw [if_pos t0]; exact setWord_other (one 16 (by rw [t0]; decide))
  rw [if_neg t0]
  by_cases t1 : tag = ENVt
  · rw [if_pos t1]; exact setWord_other (one 8 (by rw [t1]; decide))
  rw [if_neg t1]
  by_cases t2 : tag = VECTORt
  · rw [if_pos t2]; exact setWord_other (one 0 (by rw [t2]; decide))
  rw [if_neg t2]
  by_cases t3 : tag = HASHt
  · rw [if_pos t3]; exact setWord_other (one 0 (by rw [t3]; decide))
  rw [if_neg t3]
  by_cases t4 : tag = STRINGt
  · rw [if_pos t4]; exact setWord_other (one 0 (by rw [t4]; decide))
  rw [if_neg t4]
  by_cases t5 : tag = SYMBOLt
  · rw [if_pos t5]; exact setWord_other (one 0 (by rw [t5]; decide))
  rw [if_neg t5]
  by_cases t6 : tag = PORTt
  · rw [if_pos t6, setWord_other (one 56 (by rw [t6]; decide)), setWord_other (one 32 (by rw [t6]; decide)),
      setWord_other (one 16 (by rw [t6]; decide)), setWord_other (one 8 (by rw [t6]; decide))]
  rw [if_neg t6]
  by_cases t7 : tag = CONTt
  · rw [if_pos t7]; exact setWord_other (one 208 (by rw [t7]; decide))
  rw [if_neg t7]

theorem swept_live {h : Heap} {b : Nat} {d : Hdr} (hd : h.hdr b = some d) (hm : d.mark = true) : Swept h [b] (setMark h b false) := by
  refine ⟨fun a => ?_, fun k a => ?_, fun _ _ => rfl, rfl, rfl, rfl, rfl, rfl, rfl⟩
  · unfold setMark
    dsimp only
    by_cases ha : a = b
    · subst ha; simp; rfl
    · simp [ha]
  · show (h.free k).count a = _
    by_cases ha : a = b
    · subst ha; simp [deadIn, hd, hm]
    · simp [ha]

theorem swept_dead {h : Heap} {b : Nat} {d : Hdr} (hd : h.hdr b = some d) (hm : d.mark = false) (hn : need d.tag ≤ d.size) :
    Swept h [b] (freeToList (sweepObj h d.tag (b + 16)) b d.size) := by
  obtain ⟨e1, e2, e3, e4, e5, e6, e7, e8⟩ := sweepObj_same h d.tag (b + 16)
  refine ⟨fun a => ?_, fun k a => ?_, fun x hx => ?_, e3, e4, e5, e6, e7, e8⟩
  · show (sweepObj h d.tag (b + 16)).hdr a = _
    rw [e1]
    by_cases ha : a = b
    · subst ha
      rw [hd, if_pos (by simp)]
      simp only [Option.map_some, clear, ← hm]
    · simp [ha]
  · unfold freeToList
    dsimp only
    rw [e2]
    by_cases hk : k = bucketOf d.size
    · rw [if_pos hk, List.count_cons]
      by_cases ha : a = b
      · subst ha; simp [deadIn, hd, hm, hk]
      · have : ¬ b = a := fun h => ha h.symm
        simp [ha, this]
    · rw [if_neg hk]
      by_cases ha : a = b
      · subst ha
        have : ¬ bucketOf d.size = k := fun h => hk h.symm
        simp [deadIn, hd, hm, this]
      · simp [ha]
  · exact sweepObj_mem _ _ _ _ fun h => hx b (by simp) d hd hm (by omega)

theorem Tiled.congr {hdr hdr' : Nat → Option Hdr} (hs : ∀ a, (hdr' a).map Hdr.size = (hdr a).map Hdr.size) {p e l} (t : Tiled hdr p e l) :
    Tiled hdr' p e l := by
  induction t with
  | nil => exact .nil
  | @cons p e l d hd _ ih =>
    have := hs p
    rw [hd] at this
    cases hh : hdr' p with
    | none => rw [hh] at this; cases this
    | some d' =>
      rw [hh] at this
      simp only [Option.map_some, Option.some.injEq] at this
      exact .cons hh (by rw [this]; exact ih)

/-- Block sizes and types fit. -/
def SizesOk (h : Heap) : Prop := ∀ a d, h.hdr a = some d → OkSize d.size ∧ need d.tag ≤ d.size

theorem Swept.sizes {h h' : Heap} {l : List Nat} (s : Swept h l h') : ∀ a, (h'.hdr a).map Hdr.size = (h.hdr a).map Hdr.size := by
  intro a
  rw [s.hdr]
  split
  · cases h.hdr a <;> rfl
  · rfl

theorem Swept.sizesOk {h h' : Heap} {l : List Nat} (s : Swept h l h') (hs : SizesOk h) : SizesOk h' := by
  intro a d hd
  rw [s.hdr] at hd
  split at hd
  · cases hh : h.hdr a with
    | none => rw [hh] at hd; cases hd
    | some d' =>
      rw [hh] at hd
      simp only [Option.map_some, Option.some.injEq] at hd
      subst hd
      exact hs a d' hh
  · exact hs a d hd

theorem sweepSeg_spec {hdr p e l} (t : Tiled hdr p e l) : ∀ (n : Nat) (h : Heap) (live : Nat), (∀ a, (h.hdr a).map Hdr.size = (hdr a).map Hdr.size) →
    SizesOk h → e - p ≤ n → Swept h l (sweepSeg n h p e live).1 := by
  induction t with
  | @nil p =>
    intro n h live _ _ _
    have : sweepSeg n h p p live = (h, live) := by
      cases n with
      | zero => rfl
      | succ n => unfold sweepSeg; rw [if_neg (by omega)]
    rw [this]
    exact .nil h
  | @cons p e l d hd t ih =>
    intro n h live heq hok hn
    have hle := t.le
    have hsz := heq p
    rw [hd] at hsz
    cases hh : h.hdr p with
    | none => rw [hh] at hsz; cases hsz
    | some d' =>
      rw [hh] at hsz
      simp only [Option.map_some, Option.some.injEq] at hsz
      obtain ⟨n, rfl⟩ : ∃ m, n = m + 1 := ⟨n - 1, by omega⟩
      have hnot : p ∉ l := by
        intro hm
        have := ((t.congr heq).mem_bounds (fun a d h => (hok a d h).1) p hm).1
        omega
      have key : ∀ h1 live1, Swept h [p] h1 → Swept h (p :: l) (sweepSeg n h1 (p + (16 + d'.size)) e live1).1 := by
        intro h1 live1 s1
        rw [hsz]
        refine Swept.append (l1 := [p]) s1 (ih n h1 live1 (fun a => (s1.sizes a).trans (heq a)) (s1.sizesOk hok) (by omega)) ?_
        intro a ha
        rw [List.mem_singleton.1 ha]
        exact hnot
      unfold sweepSeg
      rw [if_pos (by omega), hh]
      dsimp only
      cases hm : d'.mark with
      | true => exact key _ _ (swept_live hh hm)
      | false => exact key _ _ (swept_dead hh hm (hok p d' hh).2)

theorem sweepSegs_spec : ∀ (ss : List Seg) (h : Heap) (live : Nat), SizesOk h → ss.Pairwise (fun s t => s.start + s.size ≤ t.start ∨ t.start + t.size ≤ s.start) →
    (∀ s ∈ ss, s.bump ≤ s.start + s.size ∧ ∃ l, Tiled h.hdr s.start s.bump l) →
    ∃ l, Swept h l (sweepSegs h live ss).1 ∧ (∀ a, a ∈ l ↔ ∃ s ∈ ss, ∃ t, Tiled h.hdr s.start s.bump t ∧ a ∈ t)
  | [], h, live, _, _, _ => ⟨[], .nil h, fun a => by simp⟩
  | s :: ss, h, live, hok, hp, ht => by
    obtain ⟨hb, t, htile⟩ := ht s (by simp)
    have s1 := sweepSeg_spec htile (s.bump - s.start) h live (fun _ => rfl) hok (Nat.le_refl _)
    unfold sweepSegs
    dsimp only
    generalize hq : sweepSeg (s.bump - s.start) h s.start s.bump live = q at s1
    obtain ⟨h1, live1⟩ := q
    have hcongr : ∀ {p e l}, Tiled h.hdr p e l ↔ Tiled h1.hdr p e l := fun {p e l} =>
      ⟨fun t => t.congr s1.sizes, fun t => t.congr fun a => (s1.sizes a).symm⟩
    obtain ⟨l, s2, hl⟩ := sweepSegs_spec ss h1 live1 (s1.sizesOk hok) (List.pairwise_cons.1 hp).2 fun x hx => by
      obtain ⟨hb', t', ht'⟩ := ht x (by simp [hx])
      exact ⟨hb', t', hcongr.1 ht'⟩
    have hoksz : ∀ a d, h.hdr a = some d → OkSize d.size := fun a d h => (hok a d h).1
    refine ⟨t ++ l, s1.append s2 fun a ha hal => ?_, fun a => ?_⟩
    · obtain ⟨x, hx, t', ht', hat⟩ := (hl a).1 hal
      have hdis := (List.pairwise_cons.1 hp).1 x hx
      obtain ⟨b1, _, d1, e1, b2⟩ := htile.mem_bounds hoksz a ha
      obtain ⟨c1, _, d2, e2, c2⟩ := (hcongr.2 ht').mem_bounds hoksz a hat
      have hbx := (ht x (by simp [hx])).1
      omega
    · rw [List.mem_append, hl]
      constructor
      · rintro (ha | ⟨x, hx, t', ht', hat⟩)
        · exact ⟨s, by simp, t, htile, ha⟩
        · exact ⟨x, by simp [hx], t', hcongr.2 ht', hat⟩
      · rintro ⟨x, hx, t', ht', hat⟩
        rcases List.mem_cons.1 hx with rfl | hx
        · cases htile.unique ht' hoksz
          exact .inl hat
        · exact .inr ⟨x, hx, t', hcongr.1 ht', hat⟩

/-- The sweep phase clears all marks and collects the unmarked blocks. -/
theorem sweepPhase_spec {h : Heap} (L : Layout h) :
    (∀ a, (sweepPhase h).hdr a = (h.hdr a).map clear) ∧
    (∀ k a, ((sweepPhase h).free k).count a = if deadIn h k a = true then 1 else 0) ∧
    (∀ x, (∀ a d, h.hdr a = some d → d.mark = false → ¬ (a + 16 ≤ x ∧ x < a + 16 + d.size)) → (sweepPhase h).mem x = h.mem x) ∧
    (sweepPhase h).arr = h.arr ∧ (sweepPhase h).old = h.old ∧ (sweepPhase h).cur = h.cur ∧ (sweepPhase h).lo = h.lo ∧
    (sweepPhase h).hi = h.hi ∧ (sweepPhase h).since = h.since := by
  obtain ⟨l, s, hl⟩ := sweepSegs_spec h.segs { h with free := fun _ => [] } 0 L.size L.disj fun s hs => ⟨(L.seg s hs).2.2.1, L.tiled s hs⟩
  have hall : ∀ a d, h.hdr a = some d → a ∈ l := fun a d hd => (hl a).2 (L.only a d hd)
  unfold sweepPhase
  generalize sweepSegs { h with free := fun _ => [] } 0 h.segs = q at s
  obtain ⟨h', live⟩ := q
  refine ⟨fun a => ?_, fun k a => ?_, fun x hx => ?_, s.arr, s.old, s.cur, s.lo, s.hi, s.since⟩
  · show h'.hdr a = _
    rw [s.hdr]
    split
    · rfl
    · rename_i hn
      show h.hdr a = _
      cases hd : h.hdr a with
      | none => rfl
      | some d => exact absurd (hall a d hd) hn
  · show (h'.free k).count a = _
    rw [s.free]
    show List.count a [] + _ = _
    have hdead : deadIn { h with free := fun _ => [] } k a = deadIn h k a := rfl
    rw [hdead, List.count_nil, Nat.zero_add]
    by_cases hdd : deadIn h k a = true
    · have : a ∈ l := by
        cases hd : h.hdr a with
        | none => unfold deadIn at hdd; rw [hd] at hdd; cases hdd
        | some d => exact hall a d hd
      simp [hdd, this]
    · simp [hdd]
  · exact s.mem x fun a _ d hd => hx a d hd

theorem layout_congr {h h' : Heap} (L : Layout h) (hs : ∀ a, (h'.hdr a).map (fun d => (d.tag, d.size)) = (h.hdr a).map (fun d => (d.tag, d.size)))
    (ho : h'.old = h.old) (hc : h'.cur = h.cur) (hlo : h'.lo = h.lo) (hhi : h'.hi = h.hi) : Layout h' := by
  have s : Sim h { h with hdr := h'.hdr } := ⟨rfl, rfl, rfl, rfl, rfl, rfl, rfl, rfl, rfl, hs⟩
  have L1 := L.sim s
  have hseg : h'.segs = h.segs := by unfold Heap.segs; rw [ho, hc]
  exact ⟨by rw [hseg, hlo, hhi]; exact L1.seg, by rw [hseg]; exact L1.disj, by rw [hseg]; exact L1.tiled, by rw [hseg]; exact L1.only, L1.size⟩

theorem map_clear (o : Option Hdr) : (o.map clear).map (fun d => (d.tag, d.size)) = o.map (fun d => (d.tag, d.size)) := by
  cases o <;> rfl

/-- After a sweep the state is well-formed. -/
theorem sweepPhase_wf {h : Heap} (L : Layout h) : WF (sweepPhase h) := by
  obtain ⟨h1, h2, h3, h4, h5, h6, h7, h8, h9⟩ := sweepPhase_spec L
  have hmem : ∀ k a, a ∈ (sweepPhase h).free k ↔ deadIn h k a = true := by
    intro k a
    rw [← List.count_pos_iff, h2]
    by_cases hd : deadIn h k a = true <;> simp [hd]
  refine ⟨layout_congr L (fun a => by rw [h1, map_clear]) h5 h6 h7 h8, fun a => ?_, fun k a ha => ?_, fun k => ?_⟩
  · rintro ⟨d, hd, hm⟩
    rw [h1] at hd
    cases hh : h.hdr a with
    | none => rw [hh] at hd; cases hd
    | some d' =>
      rw [hh] at hd
      simp only [Option.map_some, Option.some.injEq] at hd
      subst hd
      cases hm
  · rw [hmem] at ha
    unfold deadIn at ha
    rw [h1]
    cases hh : h.hdr a with
    | none => rw [hh] at ha; cases ha
    | some d =>
      rw [hh] at ha
      simp only [Bool.and_eq_true, beq_iff_eq] at ha
      exact ⟨clear d, rfl, ha.2⟩
  · rw [List.nodup_iff_count]
    intro a
    rw [h2]
    split <;> omega

end Pscm.Gc
