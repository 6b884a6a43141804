import Verif.GcProps
/-!
# C88: when the collector runs

Between two collections the allocated bytes are bounded by a threshold that follows the amount of live data.
-/
namespace Pscm
open Gc

namespace Gc

/-- The bytes of the block at `a`, with its header. -/
def blockBytes (h : Heap) (a : Nat) : Nat := match h.hdr a with | some d => 16 + d.size | none => 0

def markBit (h : Heap) (a : Nat) : Bool := match h.hdr a with | some d => d.mark | none => false

theorem markBit_iff {h : Heap} {a : Nat} : markBit h a = true ↔ Marked h a := by
  unfold markBit Marked
  cases h.hdr a <;> simp

/-- The bytes of the marked blocks among `l`. -/
def markedBytes (h : Heap) (l : List Nat) : Nat := ((l.filter (markBit h)).map (blockBytes h)).sum

theorem markedBytes_cons (h : Heap) (a : Nat) (l : List Nat) :
    markedBytes h (a :: l) = (if markBit h a then blockBytes h a else 0) + markedBytes h l := by
  unfold markedBytes
  rw [List.filter_cons]
  split <;> simp

theorem markedBytes_append (h : Heap) (l m : List Nat) : markedBytes h (l ++ m) = markedBytes h l + markedBytes h m := by
  unfold markedBytes
  rw [List.filter_append, List.map_append, List.sum_append]

theorem markedBytes_congr {h h1 : Heap} {l : List Nat} (e : ∀ a ∈ l, h1.hdr a = h.hdr a) : markedBytes h1 l = markedBytes h l := by
  induction l with
  | nil => rfl
  | cons a l ih =>
    rw [markedBytes_cons, markedBytes_cons, ih fun b hb => e b (by simp [hb])]
    have := e a (by simp)
    unfold markBit blockBytes
    rw [this]

theorem sweepSeg_live {hdr p e l} (t : Tiled hdr p e l) : ∀ (n : Nat) (h : Heap) (live : Nat), (∀ a, (h.hdr a).map Hdr.size = (hdr a).map Hdr.size) →
    SizesOk h → e - p ≤ n → (sweepSeg n h p e live).2 = live + markedBytes h l ∧ l.Nodup := by
  induction t with
  | @nil p =>
    intro n h live _ _ _
    have : sweepSeg n h p p live = (h, live) := by
      cases n with
      | zero => rfl
      | succ n => unfold sweepSeg; rw [if_neg (by omega)]
    rw [this]
    exact ⟨rfl, List.nodup_nil⟩
  | @cons p e l d hd t ih =>
    intro n h live heq hok hn
    have hle := t.le
    have hsz := heq p
    rw [hd] at hsz
    cases hh : h.hdr p with
    | none => rw [hh] at hsz; cases hsz
    | some d' =>
      rw [hh] at hsz
      simp only [Option.map_some, Option.some.injEq] at hsz
      obtain ⟨n, rfl⟩ : ∃ m, n = m + 1 := ⟨n - 1, by omega⟩
      have hnot : p ∉ l := by
        intro hm
        have := ((t.congr heq).mem_bounds (fun a d h => (hok a d h).1) p hm).1
        omega
      have key : ∀ h1 live1, Swept h [p] h1 → (sweepSeg n h1 (p + (16 + d'.size)) e live1).2 = live1 + markedBytes h l ∧ l.Nodup := by
        intro h1 live1 s1
        rw [hsz]
        have := ih n h1 live1 (fun a => (s1.sizes a).trans (heq a)) (s1.sizesOk hok) (by omega)
        rw [markedBytes_congr (h := h) (h1 := h1) (l := l) fun a ha => ?_] at this
        · exact this
        · rw [s1.hdr, if_neg]
          rw [List.mem_singleton]
          rintro rfl
          exact hnot ha
      unfold sweepSeg
      rw [if_pos (by omega), hh, markedBytes_cons]
      have hb : blockBytes h p = 16 + d'.size := by unfold blockBytes; rw [hh]
      have hk : markBit h p = d'.mark := by unfold markBit; rw [hh]
      dsimp only
      rw [hb, hk]
      cases hm : d'.mark with
      | true =>
        obtain ⟨k1, k2⟩ := key _ (live + (16 + d'.size)) (swept_live hh hm)
        refine ⟨?_, List.nodup_cons.2 ⟨hnot, k2⟩⟩
        simp only [↓reduceIte]
        rw [k1]; omega
      | false =>
        obtain ⟨k1, k2⟩ := key _ live (swept_dead hh hm (hok p d' hh).2)
        refine ⟨?_, List.nodup_cons.2 ⟨hnot, k2⟩⟩
        simp only [Bool.false_eq_true, ↓reduceIte]
        rw [k1]; omega

theorem sweepSegs_live : ∀ (ss : List Seg) (h : Heap) (live : Nat), SizesOk h → ss.Pairwise (fun s t => s.start + s.size ≤ t.start ∨ t.start + t.size ≤ s.start) →
    (∀ s ∈ ss, s.bump ≤ s.start + s.size ∧ ∃ l, Tiled h.hdr s.start s.bump l) →
    ∃ l, (sweepSegs h live ss).2 = live + markedBytes h l ∧ l.Nodup ∧ (∀ a, a ∈ l ↔ ∃ s ∈ ss, ∃ t, Tiled h.hdr s.start s.bump t ∧ a ∈ t)
  | [], h, live, _, _, _ => ⟨[], rfl, List.nodup_nil, fun a => by simp⟩
  | s :: ss, h, live, hok, hp, ht => by
    obtain ⟨hb, t, htile⟩ := ht s (by simp)
    have s1 := sweepSeg_spec htile (s.bump - s.start) h live (fun _ => rfl) hok (Nat.le_refl _)
    have s1' := sweepSeg_live htile (s.bump - s.start) h live (fun _ => rfl) hok (Nat.le_refl _)
    unfold sweepSegs
    dsimp only
    generalize hq : sweepSeg (s.bump - s.start) h s.start s.bump live = q at s1 s1'
    obtain ⟨h1, live1⟩ := q
    have hcongr : ∀ {p e l}, Tiled h.hdr p e l ↔ Tiled h1.hdr p e l := fun {p e l} =>
      ⟨fun t => t.congr s1.sizes, fun t => t.congr fun a => (s1.sizes a).symm⟩
    obtain ⟨l, s2, hnd, hl⟩ := sweepSegs_live ss h1 live1 (s1.sizesOk hok) (List.pairwise_cons.1 hp).2 fun x hx => by
      obtain ⟨hb', t', ht'⟩ := ht x (by simp [hx])
      exact ⟨hb', t', hcongr.1 ht'⟩
    have hoksz : ∀ a d, h.hdr a = some d → OkSize d.size := fun a d h => (hok a d h).1
    have hdisj : ∀ a ∈ t, a ∉ l := by
      intro a ha hal
      obtain ⟨x, hx, t', ht', hat⟩ := (hl a).1 hal
      have hdis := (List.pairwise_cons.1 hp).1 x hx
      obtain ⟨b1, _, d1, e1, b2⟩ := htile.mem_bounds hoksz a ha
      obtain ⟨c1, _, d2, e2, c2⟩ := (hcongr.2 ht').mem_bounds hoksz a hat
      have hbx := (ht x (by simp [hx])).1
      omega
    refine ⟨t ++ l, ?_, ?_, fun a => ?_⟩
    · rw [s2, markedBytes_append, ← Nat.add_assoc, ← s1'.1]
      congr 1
      refine markedBytes_congr fun a ha => ?_
      rw [s1.hdr, if_neg fun h => hdisj a h ha]
    · exact List.nodup_append.2 ⟨s1'.2, hnd, fun a ha b hb hab => hdisj a ha (hab ▸ hb)⟩
    · rw [List.mem_append, hl]
      constructor
      · rintro (ha | ⟨x, hx, t', ht', hat⟩)
        · exact ⟨s, by simp, t, htile, ha⟩
        · exact ⟨x, by simp [hx], t', hcongr.2 ht', hat⟩
      · rintro ⟨x, hx, t', ht', hat⟩
        rcases List.mem_cons.1 hx with rfl | hx
        · cases htile.unique ht' hoksz
          exact .inl hat
        · exact .inr ⟨x, hx, t', hcongr.1 ht', hat⟩

theorem bumpAllocate_counts {h h' : Heap} {total page p : Nat} (hr : bumpAllocate h total page = .ok (h', p)) :
    h'.since = h.since ∧ h'.threshold = h.threshold := by
  unfold bumpAllocate at hr
  dsimp only at hr
  split at hr
  · split at hr
    · cases hr
    · cases hr; exact ⟨rfl, rfl⟩
  · cases hr; exact ⟨rfl, rfl⟩

theorem allocate_counts {h h' : Heap} {tag size page o : Nat} (hr : allocate h tag size page = .ok (h', o)) :
    h'.since = h.since + (16 + size) ∧ h'.threshold = h.threshold := by
  unfold allocate at hr
  dsimp only at hr
  split at hr
  · split at hr
    · cases hr; exact ⟨rfl, rfl⟩
    · cases hb : bumpAllocate { h with since := h.since + (16 + size) } (16 + classSize (bucketOf size)) page with
      | crash => rw [hb] at hr; cases hr
      | more => rw [hb] at hr; cases hr
      | ok q =>
        obtain ⟨h1, p⟩ := q
        rw [hb] at hr
        cases hr
        exact bumpAllocate_counts hb
  · split at hr
    · cases hr; exact ⟨rfl, rfl⟩
    · cases hb : bumpAllocate { h with since := h.since + (16 + size) } (16 + size) page with
      | crash => rw [hb] at hr; cases hr
      | more => rw [hb] at hr; cases hr
      | ok q =>
        obtain ⟨h1, p⟩ := q
        rw [hb] at hr
        cases hr
        exact bumpAllocate_counts hb

end Gc

/-- `l` lists the blocks in use, each once. -/
def Lists (h : Heap) (l : List Nat) : Prop := l.Nodup ∧ ∀ a, a ∈ l ↔ Live h a

/-- The bytes of the listed blocks with their headers. -/
def bytesOf (h : Heap) (l : List Nat) : Nat := (l.map fun a => match h.hdr a with | some d => 16 + d.size | none => 0).sum

/-- After a collection nothing counts as allocated, and the next one is due when half as much again as the live bytes — at least 2 MiB — has been
allocated. -/
theorem c88_threshold {h h' : Heap} (W : WF h) {n : Nat} {roots : List Nat} (hr : runGc n h roots = .ok h') :
    h'.since = 0 ∧ ∃ l, Lists h' l ∧ h'.threshold = max (bytesOf h' l * 3 / 2) (2 * 1024 * 1024) := by
  have hsp := runGc_spec W hr
  unfold runGc at hr
  cases hm : markPhase n h roots with
  | crash => rw [hm] at hr; cases hr
  | more => rw [hm] at hr; cases hr
  | ok h1 =>
    rw [hm] at hr
    have inv := markPhase_ok W.layout W.clean hm
    have L1 := W.layout.sim inv.sim
    have ex := (c74_exact W.layout W.clean hm).1
    obtain ⟨l, e1, e2, e3⟩ := sweepSegs_live h1.segs { h1 with free := fun _ => [] } 0 L1.size L1.disj fun s hs => ⟨(L1.seg s hs).2.2.1, L1.tiled s hs⟩
    have hth : h'.threshold = max ((sweepSegs { h1 with free := fun _ => [] } 0 h1.segs).2 * 3 / 2) (2 * 1024 * 1024) := by
      have : h' = { sweepPhase h1 with since := 0 } := by cases hr; rfl
      rw [this]; rfl
    refine ⟨by cases hr; rfl, l.filter (markBit h1), ⟨e2.filter _, fun a => ?_⟩, ?_⟩
    · rw [List.mem_filter, markBit_iff, ex, hsp.2.2.2.2.1 a]
      refine ⟨fun h => h.2, fun h => ⟨?_, h⟩⟩
      obtain ⟨d, hd, _⟩ := (ex a).2 h
      exact (e3 a).2 (L1.only a d hd)
    · rw [hth, e1, Nat.zero_add]
      have hb : ∀ a, (match h'.hdr a with | some d => 16 + d.size | none => 0) = blockBytes h1 a := by
        intro a
        have hs := (sweepPhase_spec L1).1 a
        have : h' = { sweepPhase h1 with since := 0 } := by cases hr; rfl
        rw [this]
        show (match (sweepPhase h1).hdr a with | some d => 16 + d.size | none => 0) = _
        rw [hs]
        unfold blockBytes
        cases h1.hdr a <;> rfl
      unfold bytesOf markedBytes
      rw [List.map_congr_left fun a _ => hb a]
      rfl

/-- An allocation collects exactly when the bytes allocated since the last collection have reached the threshold: below it every block stays in
use; and its bytes are counted. -/
theorem c88_when {h h' : Heap} (W : WF h) {n : Nat} {roots : List Nat} {tag size page o : Nat} (hg : GoodRequest tag size)
    (hf : FreshAt h page (growth (16 + blockSize size))) (hr : gcAlloc n h roots tag size page = .ok (h', o)) :
    (h.since < h.threshold → h'.since = h.since + (16 + size) ∧ h'.threshold = h.threshold ∧ ∀ a, Live h a → Live h' a) ∧
    (h.threshold ≤ h.since → h'.since = 16 + size ∧ (∀ a, a + 16 ≠ o → (Live h' a ↔ Reach h roots a)) ∧
      ∃ l, (l.Nodup ∧ ∀ a, a ∈ l ↔ Reach h roots a) ∧ h'.threshold = max (bytesOf h l * 3 / 2) (2 * 1024 * 1024)) := by
  obtain ⟨hm, a, hcase, Wm, rfl, A⟩ := gcAlloc_spec W hg hf hr
  have keep : ∀ b, Live hm b → Live h' b := by
    intro b hb
    have hne : b ≠ a := by rintro rfl; exact A.fresh hb
    exact (A.others b hne).2.1 hb
  unfold gcAlloc at hr
  refine ⟨fun hlt => ?_, fun hge => ?_⟩
  · rw [if_neg (by omega)] at hr
    have := allocate_counts hr
    refine ⟨this.1, this.2, fun b hb => keep b ?_⟩
    rcases hcase with ⟨rfl, _⟩ | ⟨h1, _⟩
    · exact hb
    · omega
  · rw [if_pos hge] at hr
    rcases hcase with ⟨_, h2⟩ | ⟨_, hrun⟩
    · omega
    · rw [hrun] at hr
      have hc := allocate_counts hr
      obtain ⟨t1, l, t2, t3⟩ := c88_threshold W hrun
      have hsp := runGc_spec W hrun
      refine ⟨by rw [hc.1, t1, Nat.zero_add], fun b hb => ?_, l, ⟨t2.1, fun b => ?_⟩, ?_⟩
      · have hne : b ≠ a := by rintro rfl; exact hb rfl
        rw [← (A.others b hne).2]
        exact hsp.2.2.2.2.1 b
      · rw [t2.2, hsp.2.2.2.2.1 b]
      · rw [hc.2, t3]
        unfold bytesOf
        rw [hsp.2.1]

/-- Histories whose requests are at most `m` bytes. -/
inductive GcUpTo (m : Nat) : Heap → Heap → Prop
  | nil {h} : GcUpTo m h h
  | gc {h h1 h2 n roots} : GcUpTo m h h1 → runGc n h1 roots = .ok h2 → GcUpTo m h h2
  | alloc {h h1 h2 n roots tag size page o} : GcUpTo m h h1 → GoodRequest tag size → FreshAt h1 page (growth (16 + blockSize size)) → size ≤ m →
      gcAlloc n h1 roots tag size page = .ok (h2, o) → GcUpTo m h h2
  | write {h h1 a d off v} : GcUpTo m h h1 → h1.hdr a = some d → off + 8 ≤ d.size → GcUpTo m h (setWord h1 (a + 16 + off) v)
  | outside {h h1 arr} : GcUpTo m h h1 → GcUpTo m h { h1 with arr := arr }

theorem GcUpTo.steps {m : Nat} {h h' : Heap} (hs : GcUpTo m h h') : GcSteps h h' := by
  induction hs with
  | nil => exact .nil
  | gc _ hr ih => exact .snoc ih (.gc hr)
  | alloc _ hg hf _ hr ih => exact .snoc ih (.alloc hg hf hr)
  | write _ hd ho ih => exact .snoc ih (.write hd ho)
  | outside _ ih => exact .snoc ih .outside

/-- Between two collections no more than the threshold plus one request is allocated, whatever the history. -/
theorem c88_bound {page : Nat} {arr : Nat → List Nat} {mem : Nat → Nat} (h1 : page % 16 = 0) (h2 : 16 ≤ page) {m : Nat} {h : Heap}
    (hs : GcUpTo m (gcInit page arr mem) h) : h.since < h.threshold + 16 + m ∧ 2 * 1024 * 1024 ≤ h.threshold := by
  generalize he : gcInit page arr mem = h0 at hs
  induction hs with
  | nil => subst he; exact ⟨by show 0 < 4 * 1024 * 1024 + 16 + m; omega, by show 2 * 1024 * 1024 ≤ 4 * 1024 * 1024; decide⟩
  | gc s hr ih =>
    obtain ⟨t1, l, _, t3⟩ := c88_threshold (gc_history h1 h2 (he ▸ s.steps)) hr
    rw [t1, t3]; omega
  | @alloc h1' h2' n roots tag size page' o s hg hf hm hr ih =>
    obtain ⟨i1, i2⟩ := ih
    obtain ⟨c1, c2⟩ := c88_when (gc_history h1 h2 (he ▸ s.steps)) hg hf hr
    by_cases hlt : h1'.since < h1'.threshold
    · obtain ⟨e1, e2, _⟩ := c1 hlt
      rw [e1, e2]; omega
    · obtain ⟨e1, _, l, _, e3⟩ := c2 (by omega)
      rw [e1, e3]; omega
  | write _ _ _ ih => exact ih
  | outside _ ih => exact ih

namespace Gc.Demo

/-- The hypotheses are met: an allocation from the start, the number is then collected; the threshold is the least one. -/
example : ∃ h, GcUpTo 24 start h ∧ h.since = 0 ∧ h.threshold = 2 * 1024 * 1024 ∧ ¬ Live h 4096 := by
  have s1 : GcUpTo 24 start (heapOf one) := .alloc .nil (n := 100) (roots := []) (tag := NUMBERt) (size := 16) (o := 4112) (page := 16777216)
    ⟨by decide, by decide⟩ (fresh_of (by decide +kernel)) (by decide) rfl
  exact ⟨_, .gc s1 (n := 100) (roots := []) (ok_heapOf (by decide +kernel)), by decide +kernel, by decide +kernel,
    fun hl => hl.2 0 (by decide +kernel)⟩

/-- An allocation above the threshold collects. -/
example : ∃ h h' o, WF h ∧ h.threshold ≤ h.since ∧ gcAlloc 100 h [4144] NUMBERt 16 16777216 = .ok (h', o) ∧ h'.since = 32 :=
  ⟨{ heapOf linked with since := 4 * 1024 * 1024 }, _, _, wf_same linked_wf rfl rfl rfl rfl rfl rfl, by decide +kernel, rfl, by decide +kernel⟩

end Gc.Demo
end Pscm
