import Verif.GcAlloc
/-!
# C74 – C77: the garbage collector

The vocabulary (`Reach`, `Field`, `Live`, `Layout`, `WF`, …) is in `GcSpec`.
-/
namespace Pscm
open Gc

/-! ## C74 -/

/-- After the mark phase exactly the blocks reachable from the root words are marked, and nothing but marks has changed. -/
theorem c74_exact {h h' : Heap} {roots : List Nat} {n : Nat} (L : Layout h) (hclean : ∀ a, ¬ Marked h a) (hr : markPhase n h roots = .ok h') :
    (∀ a, Marked h' a ↔ Reach h roots a) ∧ h'.mem = h.mem ∧ h'.arr = h.arr ∧ h'.free = h.free ∧ h'.segs = h.segs ∧
    ∀ a, (h'.hdr a).map (fun d => (d.tag, d.size)) = (h.hdr a).map (fun d => (d.tag, d.size)) := by
  have inv := markPhase_ok L hclean hr
  exact ⟨inv.done, inv.sim.mem, inv.sim.arr, inv.sim.free, inv.sim.segs, inv.sim.hdr⟩

/-- The mark phase ends, on every heap, cyclic or not. -/
theorem c74_terminates {h : Heap} {roots : List Nat} (L : Layout h) : ∃ N, ∀ n, N ≤ n → markPhase n h roots ≠ .more := by
  obtain ⟨bs, hbs⟩ := L.finite
  refine ⟨measure bs h [], fun n hn => ?_⟩
  unfold markPhase
  cases hp : scanRoots h [] roots with
  | crash => simp
  | more => exact absurd hp (scanRoots_ne_more _ _ _)
  | ok q =>
    obtain ⟨h1, st1⟩ := q
    have P := scanRoots_ok L hp
    refine markLoop_terminates bs n h1 st1 (L.sim P.sim) (fun a d hd => ?_) (Nat.le_trans (P.measure_le hbs) hn)
    obtain ⟨m, hm⟩ := P.sim.symm.some hd
    exact hbs a _ hm

/-- It completes without an invalid memory access if no scanned word points into a gap between the segments and the arrays of reachable
vectors and hash tables exist. -/
theorem c74_completes {h : Heap} {roots : List Nat} (L : Layout h) (hclean : ∀ a, ¬ Marked h a) (hlo : 0 < h.lo) (hroots : ∀ w ∈ roots, SafeWord h w)
    (hs : ∀ a, Reach h roots a → ArrOk h a ∧ ∀ w, Field h a w → SafeWord h w) : ∃ n h', markPhase n h roots = .ok h' := by
  obtain ⟨N, hN⟩ := c74_terminates (roots := roots) L
  refine ⟨N, ?_⟩
  cases hm : markPhase N h roots with
  | ok h' => exact ⟨h', rfl⟩
  | more => exact absurd hm (hN N (Nat.le_refl _))
  | crash =>
    exfalso
    unfold markPhase at hm
    cases hp : scanRoots h [] roots with
    | crash => exact scanRoots_safe _ _ _ L hroots hp
    | more => rw [hp] at hm; cases hm
    | ok q =>
      obtain ⟨h1, st1⟩ := q
      rw [hp] at hm
      have P := scanRoots_ok L hp
      obtain ⟨m1, m2, m3, m4, m5⟩ := P.marks
      refine markLoop_safe L hs hlo N h1 st1 ⟨P.sim, fun a ha => ?_, fun a ha => ?_, fun a ha hst => ?_, m2⟩ hm
      · rcases m3 a ha with ha | ⟨⟨w, hw, hpt⟩, _⟩
        · exact absurd ha (hclean a)
        · exact .root hw hpt
      · rcases m5 a ha with ha | ha
        · cases ha
        · exact ha
      · rcases m3 a ha with ha | ⟨_, h2⟩
        · exact absurd ha (hclean a)
        · exact absurd h2 hst

/-! ## C75 -/

/-- The free list of a block of the given size: lists 0 to 3 hold blocks of 16, 32, 64 and 128 bytes, list 4 the larger ones. -/
def ClassOf (size k : Nat) : Prop := (k, size) ∈ [(0, 16), (1, 32), (2, 64), (3, 128)] ∨ k = 4 ∧ 128 < size

theorem bucket_classOf {n k : Nat} (hn : OkSize n) : bucketOf n = k ↔ ClassOf n k := by
  unfold OkSize at hn
  rcases hn with rfl | rfl | rfl | rfl | ⟨h, _⟩
  · constructor
    · rintro rfl; exact .inl (by decide)
    · rintro (h | ⟨_, h⟩)
      · simp at h; subst h; rfl
      · omega
  · constructor
    · rintro rfl; exact .inl (by decide)
    · rintro (h | ⟨_, h⟩)
      · simp at h; subst h; rfl
      · omega
  · constructor
    · rintro rfl; exact .inl (by decide)
    · rintro (h | ⟨_, h⟩)
      · simp at h; subst h; rfl
      · omega
  · constructor
    · rintro rfl; exact .inl (by decide)
    · rintro (h | ⟨_, h⟩)
      · simp at h; subst h; rfl
      · omega
  · have : bucketOf n = 4 := by
      unfold bucketOf
      rw [if_neg (by omega), if_neg (by omega), if_neg (by omega), if_neg (by omega)]
    rw [this]
    constructor
    · rintro rfl; exact .inr ⟨rfl, h⟩
    · rintro (h' | ⟨h', _⟩)
      · simp at h'
        omega
      · exact h'.symm

/-- After a sweep: a marked block keeps header and contents, loses its mark and is on no free list; an unmarked block is on the free list of
its class once and on no other; there are no other blocks.  (Heaps whose large blocks are multiples of 16 bytes: part of `Layout`.) -/
theorem c75_sweep_partial {h : Heap} (L : Layout h) :
    (∀ a d, h.hdr a = some d → d.mark = true →
      (sweepPhase h).hdr a = some ⟨false, d.tag, d.size⟩ ∧ (∀ x, a + 16 ≤ x → x < a + 16 + d.size → (sweepPhase h).mem x = h.mem x) ∧
      ∀ k, a ∉ (sweepPhase h).free k) ∧
    (∀ a d, h.hdr a = some d → d.mark = false →
      (sweepPhase h).hdr a = some d ∧ ∀ k, (ClassOf d.size k → ((sweepPhase h).free k).count a = 1) ∧
        (¬ ClassOf d.size k → a ∉ (sweepPhase h).free k)) ∧
    (∀ a, h.hdr a = none → (sweepPhase h).hdr a = none ∧ ∀ k, a ∉ (sweepPhase h).free k) := by
  obtain ⟨s1, s2, s3, s4, s5, s6, s7, s8, s9⟩ := sweepPhase_spec L
  have hmem : ∀ k a, a ∈ (sweepPhase h).free k ↔ deadIn h k a = true := by
    intro k a
    rw [← List.count_pos_iff, s2]
    by_cases hd : deadIn h k a = true <;> simp [hd]
  refine ⟨fun a d hd hm => ⟨by rw [s1, hd]; rfl, fun x h1 h2 => s3 x fun b db hdb hmb hx => ?_, fun k => ?_⟩,
    fun a d hd hm => ⟨by rw [s1, hd]; simp only [Option.map_some, clear, ← hm], fun k => ?_⟩, fun a hd => ⟨by rw [s1, hd]; rfl, fun k => ?_⟩⟩
  · have hne : a ≠ b := by
      rintro rfl
      rw [hd] at hdb; cases hdb
      rw [hm] at hmb; cases hmb
    have := L.disjoint hd hdb hne
    omega
  · rw [hmem]; unfold deadIn; rw [hd]; simp [hm]
  · have hc := bucket_classOf (k := k) (L.okSize a d hd)
    refine ⟨fun hk => ?_, fun hk => ?_⟩
    · rw [s2, if_pos]
      unfold deadIn
      rw [hd]
      simp [hm, hc.2 hk]
    · rw [hmem]
      unfold deadIn
      rw [hd]
      have hn : bucketOf d.size ≠ k := fun e => hk (hc.1 e)
      simp [hm, hn]
  · rw [hmem]; unfold deadIn; rw [hd]; simp

/-! ## Histories -/

/-- The program allocates, writes into its objects and its malloc'ed data, and collects. -/
inductive GcStep : Heap → Heap → Prop
  | gc {h h' n roots} : runGc n h roots = .ok h' → GcStep h h'
  | alloc {h h' n roots tag size page o} : GoodRequest tag size → FreshAt h page (growth (16 + blockSize size)) →
      gcAlloc n h roots tag size page = .ok (h', o) → GcStep h h'
  | write {h a d off v} : h.hdr a = some d → off + 8 ≤ d.size → GcStep h (setWord h (a + 16 + off) v)
  | outside {h arr} : GcStep h { h with arr := arr }

inductive GcSteps : Heap → Heap → Prop
  | nil {h} : GcSteps h h
  | snoc {h h1 h2} : GcSteps h h1 → GcStep h1 h2 → GcSteps h h2

theorem gcInit_wf {page : Nat} {arr : Nat → List Nat} {mem : Nat → Nat} (h1 : page % 16 = 0) (h2 : 16 ≤ page) : WF (gcInit page arr mem) := by
  have hs : (gcInit page arr mem).segs = [⟨page, 8 * 1024 * 1024, page⟩] := rfl
  refine ⟨⟨fun s hs' => ?_, by rw [hs]; simp, fun s hs' => ?_, fun a d hd => (by cases hd), fun a d hd => (by cases hd)⟩, ?_, fun k a ha => (by cases ha), fun k => List.nodup_nil⟩
  · rw [hs, List.mem_singleton] at hs'
    subst hs'
    exact ⟨h1, h1, by simp, h2, Nat.le_refl _, Nat.le_refl _⟩
  · rw [hs, List.mem_singleton] at hs'
    subst hs'
    exact ⟨[], .nil⟩
  · rintro a ⟨d, hd, _⟩; cases hd

theorem wf_same {h h' : Heap} (W : WF h) (e1 : h'.hdr = h.hdr) (e2 : h'.free = h.free) (e3 : h'.old = h.old) (e4 : h'.cur = h.cur) (e5 : h'.lo = h.lo)
    (e6 : h'.hi = h.hi) : WF h' :=
  ⟨layout_congr W.layout (fun a => by rw [e1]) e3 e4 e5 e6, fun a ⟨d, hd, hm⟩ => W.clean a ⟨d, by rw [← e1]; exact hd, hm⟩,
   fun k a ha => by rw [e1]; exact W.free k a (by rw [← e2]; exact ha), fun k => by rw [e2]; exact W.nodup k⟩

/-- The parts of an allocation. -/
theorem gcAlloc_spec {h h' : Heap} (W : WF h) {n : Nat} {roots : List Nat} {tag size page o : Nat} (hg : GoodRequest tag size)
    (hf : FreshAt h page (growth (16 + blockSize size))) (hr : gcAlloc n h roots tag size page = .ok (h', o)) :
    ∃ h1 a, (h1 = h ∧ h.since < h.threshold ∨ h.threshold ≤ h.since ∧ runGc n h roots = .ok h1) ∧ WF h1 ∧ o = a + 16 ∧ Alloc h1 tag size h' a := by
  unfold gcAlloc at hr
  by_cases ht : h.since ≥ h.threshold
  · rw [if_pos ht] at hr
    cases hq : runGc n h roots with
    | crash => rw [hq] at hr; cases hr
    | more => rw [hq] at hr; cases hr
    | ok h1 =>
      rw [hq] at hr
      obtain ⟨W1, _, _, hseg, _⟩ := runGc_spec W hq
      obtain ⟨a, ho, A⟩ := allocate_spec W1 hg (by unfold FreshAt; rw [hseg]; exact hf) hr
      exact ⟨h1, a, .inr ⟨ht, rfl⟩, W1, ho, A⟩
  · rw [if_neg ht] at hr
    obtain ⟨a, ho, A⟩ := allocate_spec W hg hf hr
    exact ⟨h, a, .inl ⟨rfl, by omega⟩, W, ho, A⟩

theorem gcStep_wf {h h' : Heap} (W : WF h) (hs : GcStep h h') : WF h' := by
  cases hs with
  | gc hr => exact (runGc_spec W hr).1
  | alloc hg hf hr =>
    obtain ⟨h1, a, _, _, _, A⟩ := gcAlloc_spec W hg hf hr
    exact A.wf
  | write hd ho => exact wf_same W rfl rfl rfl rfl rfl rfl
  | outside => exact wf_same W rfl rfl rfl rfl rfl rfl

/-- After any history the memory is laid out as the collector assumes. -/
theorem gc_history {page : Nat} {arr : Nat → List Nat} {mem : Nat → Nat} (h1 : page % 16 = 0) (h2 : 16 ≤ page) {h : Heap}
    (hs : GcSteps (gcInit page arr mem) h) : WF h := by
  generalize he : gcInit page arr mem = h0 at hs
  induction hs with
  | nil => subst he; exact gcInit_wf h1 h2
  | snoc _ hst ih => exact gcStep_wf ih hst

/-! ## C76 -/

/-- After any history, an allocation that returns gives an aligned object of sufficient size, all zero, that overlaps no block in use. -/
theorem c76_alloc {page0 : Nat} {arr : Nat → List Nat} {mem : Nat → Nat} (h1 : page0 % 16 = 0) (h2 : 16 ≤ page0) {h h' : Heap}
    (hs : GcSteps (gcInit page0 arr mem) h) {n : Nat} {roots : List Nat} {tag size page o : Nat} (hg : GoodRequest tag size)
    (hf : FreshAt h page (growth (16 + blockSize size))) (hr : gcAlloc n h roots tag size page = .ok (h', o)) :
    o % 16 = 0 ∧ (∀ x, o ≤ x → x < o + size → h'.mem x = 0) ∧
    (∃ a d, o = a + 16 ∧ h'.hdr a = some d ∧ d.tag = tag ∧ size ≤ d.size ∧ Live h' a ∧
      ∀ b e, b ≠ a → h'.hdr b = some e → b + 16 + e.size ≤ a ∨ a + 16 + d.size ≤ b) ∧
    (∀ b d, Live h b → h.hdr b = some d → (h.threshold ≤ h.since → Reach h roots b) →
      b + 16 ≠ o ∧ Live h' b ∧ h'.hdr b = some d ∧ ∀ x, b + 16 ≤ x → x < b + 16 + d.size → h'.mem x = h.mem x) := by
  have W := gc_history h1 h2 hs
  obtain ⟨hm, a, hcase, Wm, rfl, A⟩ := gcAlloc_spec W hg hf hr
  obtain ⟨bs, hbs, hsz⟩ := A.hdr
  refine ⟨?_, fun x hx1 hx2 => A.zero x hx1 hx2, ⟨a, _, rfl, hbs, rfl, hsz, A.live, fun b e hb he => ?_⟩, fun b d hl hd hreach => ?_⟩
  · obtain ⟨s, _, _, _, g, _⟩ := A.wf.layout.block hbs
    omega
  · have := A.wf.layout.disjoint he hbs hb
    exact this
  · have mid : Live hm b ∧ hm.hdr b = some d ∧ ∀ x, b + 16 ≤ x → x < b + 16 + d.size → hm.mem x = h.mem x := by
      rcases hcase with ⟨rfl, _⟩ | ⟨ht, hg⟩
      · exact ⟨hl, hd, fun _ _ _ => rfl⟩
      · obtain ⟨_, e1, _, _, e4, e5⟩ := runGc_spec W hg
        exact ⟨(e4 b).2 (hreach ht), by rw [e1]; exact hd, e5 b d (hreach ht) hd⟩
    obtain ⟨m1, m2, m3⟩ := mid
    have hne : b ≠ a := by rintro rfl; exact A.fresh m1
    refine ⟨fun h => hne (by omega), (A.others b hne).2.1 m1, by rw [(A.others b hne).1]; exact m2, fun x hx1 hx2 => ?_⟩
    rw [A.mem, m3 x hx1 hx2]
    have hdb : h'.hdr b = some d := by rw [(A.others b hne).1]; exact m2
    have := A.wf.layout.disjoint hdb hbs hne
    dsimp only at this
    omega

/-- When 64 segments are in use and the last is full, an allocation that finds no free block dereferences a null pointer. -/
theorem c76_exhausted {h : Heap} {tag size page : Nat} (hs : size ≤ 128) (hfree : h.free (bucketOf size) = []) (hseg : 64 ≤ h.segs.length)
    (hfull : h.cur.start + h.cur.size < h.cur.bump + 32) : allocate h tag size page = .crash := by
  have hb : bucketOf size < 4 := by
    unfold bucketOf
    repeat' split
    all_goals omega
  have hc := (classSize_ok hb).2.mod
  unfold allocate
  dsimp only
  rw [if_pos hb, hfree]
  dsimp only
  have : ∀ h0 : Heap, h0.cur = h.cur → h0.segs = h.segs → bumpAllocate h0 (16 + classSize (bucketOf size)) page = .crash := by
    intro h0 e1 e2
    unfold bumpAllocate
    dsimp only
    rw [e1, e2]
    have r1 := (roundUp_spec (n := 16 + classSize (bucketOf size)) (k := 16) (by decide)).1
    have r2 := (roundUp_spec (n := h.cur.bump) (k := 16) (by decide)).1
    rw [if_pos (by omega), if_pos hseg]
  rw [this { h with since := h.since + (16 + size) } rfl rfl]
  rfl

/-! ## C77 -/

/-- A history in which the block `a` is reachable at every collection and is not written to. -/
inductive Keeps (a : Nat) : Heap → Heap → Prop
  | nil {h} : Keeps a h h
  | gc {h h1 h2 n roots} : Keeps a h h1 → Reach h1 roots a → runGc n h1 roots = .ok h2 → Keeps a h h2
  | alloc {h h1 h2 n roots tag size page o} : Keeps a h h1 → GoodRequest tag size → FreshAt h1 page (growth (16 + blockSize size)) →
      (h1.threshold ≤ h1.since → Reach h1 roots a) → gcAlloc n h1 roots tag size page = .ok (h2, o) → Keeps a h h2
  | write {h h1 b d off v} : Keeps a h h1 → b ≠ a → h1.hdr b = some d → off + 8 ≤ d.size → Keeps a h (setWord h1 (b + 16 + off) v)
  | outside {h h1 arr} : Keeps a h h1 → Keeps a h { h1 with arr := arr }

/-- A block that is reachable at every collection stays in use with its type, size and contents.  (Reachable through typed fields: pointers in
the stack copied by a continuation and in smob data do not count.  Large blocks are multiples of 16 bytes.) -/
theorem c77_history_partial {a : Nat} {d : Hdr} {h h' : Heap} (W : WF h) (hl : Live h a) (hd : h.hdr a = some d) (hk : Keeps a h h') :
    WF h' ∧ Live h' a ∧ h'.hdr a = some d ∧ ∀ x, a + 16 ≤ x → x < a + 16 + d.size → h'.mem x = h.mem x := by
  induction hk with
  | nil => exact ⟨W, hl, hd, fun _ _ _ => rfl⟩
  | gc _ hr hg ih =>
    obtain ⟨W1, l1, d1, m1⟩ := ih
    obtain ⟨W2, e1, _, _, e4, e5⟩ := runGc_spec W1 hg
    exact ⟨W2, (e4 a).2 hr, by rw [e1]; exact d1, fun x h1 h2 => (e5 a d hr d1 x h1 h2).trans (m1 x h1 h2)⟩
  | alloc _ hgood hf hreach hg ih =>
    obtain ⟨W1, l1, d1, m1⟩ := ih
    obtain ⟨hm, p, hcase, Wm, rfl, A⟩ := gcAlloc_spec W1 hgood hf hg
    obtain ⟨bs, hbs, hsz⟩ := A.hdr
    have mid : Live hm a ∧ hm.hdr a = some d ∧ ∀ x, a + 16 ≤ x → x < a + 16 + d.size → hm.mem x = h.mem x := by
      rcases hcase with ⟨rfl, _⟩ | ⟨ht, hg⟩
      · exact ⟨l1, d1, fun x h1 h2 => m1 x h1 h2⟩
      · obtain ⟨_, e1, _, _, e4, e5⟩ := runGc_spec W1 hg
        exact ⟨(e4 a).2 (hreach ht), by rw [e1]; exact d1, fun x h1 h2 => (e5 a d (hreach ht) d1 x h1 h2).trans (m1 x h1 h2)⟩
    obtain ⟨k1, k2, k3⟩ := mid
    have hne : a ≠ p := by rintro rfl; exact A.fresh k1
    have hda := (A.others a hne).1.trans k2
    refine ⟨A.wf, (A.others a hne).2.1 k1, hda, fun x h1 h2 => ?_⟩
    rw [A.mem, k3 x h1 h2]
    have := A.wf.layout.disjoint hda hbs hne
    dsimp only at this
    omega
  | write _ hb hdb ho ih =>
    obtain ⟨W1, l1, d1, m1⟩ := ih
    refine ⟨wf_same W1 rfl rfl rfl rfl rfl rfl, l1, d1, fun x h1 h2 => ?_⟩
    rw [setWord_other, m1 x h1 h2]
    have := W1.layout.disjoint d1 hdb (Ne.symm hb)
    omega
  | outside _ ih =>
    obtain ⟨W1, l1, d1, m1⟩ := ih
    exact ⟨wf_same W1 rfl rfl rfl rfl rfl rfl, l1, d1, m1⟩

/-- The other direction: a collection frees everything that is not reachable. -/
theorem c77_frees {h h' : Heap} (W : WF h) {n : Nat} {roots : List Nat} (hr : runGc n h roots = .ok h') (a : Nat) : Live h' a ↔ Reach h roots a :=
  (runGc_spec W hr).2.2.2.2.1 a


/-! ## Cases -/

namespace Gc.Demo

def heapOf : R Heap → Heap
  | .ok h => h
  | _ => gcInit 4096 (fun _ => []) fun _ => 0

def isOk : R Heap → Bool
  | .ok _ => true
  | _ => false

theorem ok_heapOf {r : R Heap} (h : isOk r = true) : r = .ok (heapOf r) := by
  cases r <;> first | rfl | cases h

/-- malloc'ed data: 500 is a copy of a stack holding one object address, 600 a vector of three elements. -/
def arrays : Nat → List Nat := fun p => if p = 500 then [4112] else if p = 600 then [4112, 0, 0] else []

def start : Heap := gcInit 4096 arrays fun _ => 0

/-- A number at 4112. -/
def one : R Heap := do
  let (h, _) ← gcAlloc 100 start [] NUMBERt 16 16777216
  pure h

/-- A number at 4112 and a pair at 4144. -/
def two : R Heap := do
  let h ← one
  let (h, _) ← gcAlloc 100 h [] LISTt 24 16777216
  pure h

/-- The first field of the pair is the number. -/
def linked : R Heap := do
  let h ← two
  pure (setWord h 4144 4112)

/-- A number at 4112, a large object of 248 bytes (a continuation on a platform whose `jmp_buf` has 192 bytes) at 4144, and a variable
at 4416 that holds the number. -/
def oddNew : R Heap := do
  let (h, c) ← gcAlloc 100 start [] NUMBERt 16 0
  let (h, _) ← gcAlloc 100 h [] CONTt 248 0
  let (h, b) ← gcAlloc 100 h [] VARIABLEt 8 0
  pure (setWord h b c)

/-- The same after one collection with the variable and the large object as roots. -/
def odd : R Heap := do
  let h ← oddNew
  runGc 100 h [4416, 4144]

/-- A number at 4112 and a continuation at 4144; the number's address is in the stack copied by the continuation. -/
def captured : R Heap := do
  let (h, _) ← gcAlloc 100 start [] NUMBERt 16 0
  let (h, k) ← gcAlloc 100 h [] CONTt 256 0
  pure (setWord h (k + 208) 500)

/-- A number at 4112 and a smob at 4144 whose data is the number. -/
def smob : R Heap := do
  let (h, c) ← gcAlloc 100 start [] NUMBERt 16 0
  let (h, k) ← gcAlloc 100 h [] SMOBt 40 0
  pure (setWord h (k + 8) c)

/-- A vector at 4112 that was collected. -/
def stale : R Heap := do
  let (h, v) ← gcAlloc 100 start [] VECTORt 16 0
  runGc 100 (setWord (setWord h v 600) (v + 8) 3) []

end Gc.Demo

open Gc.Demo

/-- The reachable blocks of `linked`. -/
theorem linked_reach : Reach (heapOf linked) [4144] 4096 :=
  .step (.root (List.mem_singleton_self _) ⟨rfl, ⟨false, LISTt, 32⟩, by decide +kernel⟩)
    (.cell (d := ⟨false, LISTt, 32⟩) (off := 0) (by decide +kernel) (by decide +kernel) rfl) ⟨by decide +kernel, ⟨false, NUMBERt, 16⟩, by decide +kernel⟩


theorem fresh_of {h : Heap} {page size : Nat} (hd : (page % 16 == 0 && decide (16 ≤ page) &&
    h.segs.all fun s => decide (page + size ≤ s.start) || decide (s.start + s.size ≤ page)) = true) : FreshAt h page size := by
  simp only [Bool.and_eq_true, beq_iff_eq, decide_eq_true_eq, List.all_eq_true, Bool.or_eq_true] at hd
  exact ⟨hd.1.1, hd.1.2, hd.2⟩

/-- A history: two allocations, a write, a collection. -/
theorem linked_steps : ∃ h', runGc 100 (heapOf linked) [4144] = .ok h' ∧ GcSteps start h' ∧ Live h' 4096 ∧ Live h' 4128 := by
  have s1 : GcSteps start (heapOf one) := .snoc .nil (.alloc (n := 100) (roots := []) (tag := NUMBERt) (size := 16) (o := 4112) (page := 16777216) ⟨by decide, by decide⟩ (fresh_of (by decide +kernel)) rfl)
  have s2 : GcSteps start (heapOf two) := .snoc s1 (.alloc (n := 100) (roots := []) (tag := LISTt) (size := 24) (o := 4144) (page := 16777216) ⟨by decide, by decide⟩ (fresh_of (by decide +kernel)) rfl)
  have s3 : GcSteps start (heapOf linked) := .snoc s2 (.write (a := 4128) (d := ⟨false, LISTt, 32⟩) (off := 0) (v := 4112) (by decide +kernel) (by decide))
  refine ⟨_, ok_heapOf (by decide +kernel), .snoc s3 (.gc (ok_heapOf (by decide +kernel))), ?_, ?_⟩
  · refine (c77_frees (gc_history (by decide) (by decide) s3) (ok_heapOf (by decide +kernel)) _).2 linked_reach
  · exact (c77_frees (gc_history (by decide) (by decide) s3) (ok_heapOf (by decide +kernel)) _).2
      (.root (List.mem_singleton_self _) ⟨rfl, ⟨false, LISTt, 32⟩, by decide +kernel⟩)

theorem linked_wf : WF (heapOf linked) := by
  have s1 : GcSteps start (heapOf one) := .snoc .nil (.alloc (n := 100) (roots := []) (tag := NUMBERt) (size := 16) (o := 4112) (page := 16777216) ⟨by decide, by decide⟩ (fresh_of (by decide +kernel)) rfl)
  have s2 : GcSteps start (heapOf two) := .snoc s1 (.alloc (n := 100) (roots := []) (tag := LISTt) (size := 24) (o := 4144) (page := 16777216) ⟨by decide, by decide⟩ (fresh_of (by decide +kernel)) rfl)
  exact gc_history (by decide) (by decide) (.snoc s2 (.write (a := 4128) (d := ⟨false, LISTt, 32⟩) (off := 0) (v := 4112) (by decide +kernel) (by decide)))

/-- The hypotheses of `c74_exact` and `c74_completes`. -/
example : ∃ h', markPhase 100 (heapOf linked) [4144] = .ok h' ∧ Marked h' 4096 ∧ Marked h' 4128 := by
  have hr : markPhase 100 (heapOf linked) [4144] = .ok (heapOf (markPhase 100 (heapOf linked) [4144])) := ok_heapOf (by decide +kernel)
  have := c74_exact linked_wf.layout linked_wf.clean hr
  exact ⟨_, hr, (this.1 _).2 linked_reach, (this.1 _).2 (.root (List.mem_singleton_self _) ⟨rfl, ⟨false, LISTt, 32⟩, by decide +kernel⟩)⟩

example : ∀ w ∈ [4144, 4112, 7, 0], SafeWord (heapOf linked) w := by
  intro w hw
  simp only [List.mem_cons, List.not_mem_nil, or_false] at hw
  rcases hw with rfl | rfl | rfl | rfl
  · exact .inr (.inr (.inr (by decide +kernel)))
  · exact .inr (.inr (.inr (by decide +kernel)))
  · exact .inr (.inr (.inl (by decide)))
  · exact .inl (by decide +kernel)

/-- The hypotheses of `c77_history_partial`: the number survives a collection, an allocation and a write to the pair's second field. -/
example : ∃ h', Keeps 4096 (heapOf linked) h' ∧ Live h' 4096 ∧ h'.mem 4152 = 99 := by
  have hg : runGc 100 (heapOf linked) [4144] = .ok (heapOf (runGc 100 (heapOf linked) [4144])) := ok_heapOf (by decide +kernel)
  have k1 : Keeps 4096 (heapOf linked) _ := .gc .nil linked_reach hg
  have k2 : Keeps 4096 (heapOf linked) (setWord (heapOf (runGc 100 (heapOf linked) [4144])) (4128 + 16 + 8) 99) :=
    .write (d := ⟨false, LISTt, 32⟩) k1 (by decide) (by decide +kernel) (by decide)
  refine ⟨_, k2, (c77_history_partial linked_wf ⟨⟨⟨false, NUMBERt, 16⟩, by decide +kernel⟩, ?_⟩ (d := ⟨false, NUMBERt, 16⟩) (by decide +kernel) k2).2.1, by decide +kernel⟩
  have : (heapOf linked).free = fun _ => [] := rfl
  intro k; rw [this]; simp

/-- The hypotheses of `c76_alloc`: the block of an unreachable number is used again for a string, and the pair is untouched. -/
example : ∃ h h' d, runGc 100 (setWord (heapOf linked) 4144 0) [4144] = .ok h ∧ ¬ Live h 4096 ∧ gcAlloc 100 h [] STRINGt 16 16777216 = .ok (h', 4112) ∧
    h'.hdr 4128 = some d ∧ d.tag = LISTt :=
  ⟨heapOf (runGc 100 (setWord (heapOf linked) 4144 0) [4144]), _, ⟨false, LISTt, 32⟩, ok_heapOf (by decide +kernel), fun hl => hl.2 0 (by decide +kernel), rfl,
    by decide +kernel, rfl⟩

/-- The hypotheses of `c76_exhausted`. -/
example : ∃ h : Heap, allocate h LISTt 24 0 = .crash :=
  ⟨{ start with
      old := (List.range 63).map (fun i => ⟨4096 + (i + 2) * 8388608, 4194304, 4096 + (i + 2) * 8388608 + 4194304⟩)
      cur := ⟨4096, 8388608, 4096 + 8388608⟩ },
   c76_exhausted (by decide) (by decide +kernel) (by decide +kernel) (by decide +kernel)⟩

/-- A reachable block is freed by the second collection after the allocation of a large object whose size is not a multiple of 16. -/
theorem c77_odd_size : ∃ h h', odd = .ok h ∧ Reach h [4416, 4144] 4096 ∧ Live h 4096 ∧ runGc 100 h [4416, 4144] = .ok h' ∧ ¬ Live h' 4096 := by
  refine ⟨heapOf odd, heapOf (runGc 100 (heapOf odd) [4416, 4144]), ok_heapOf (by decide +kernel), ?_, ⟨⟨⟨false, NUMBERt, 16⟩, by decide +kernel⟩, ?_⟩,
    ok_heapOf (by decide +kernel), fun hl => hl.2 0 (by decide +kernel)⟩
  · exact .step (.root List.mem_cons_self ⟨rfl, ⟨true, VARIABLEt, 16⟩, by decide +kernel⟩)
      (.cell (d := ⟨true, VARIABLEt, 16⟩) (off := 0) (by decide +kernel) (by decide +kernel) rfl) ⟨by decide +kernel, ⟨false, NUMBERt, 16⟩, by decide +kernel⟩
  · have : (heapOf odd).free = fun _ => [] := rfl
    intro k; rw [this]; simp

/-- It is the sweep that fails: the block after the large one keeps its mark. -/
theorem c75_odd_size : ∃ h h', oddNew = .ok h ∧ (∀ a, ¬ Marked h a) ∧ markPhase 100 h [4416, 4144] = .ok h' ∧ Marked (sweepPhase h') 4400 := by
  refine ⟨heapOf oddNew, heapOf (markPhase 100 (heapOf oddNew) [4416, 4144]), ok_heapOf (by decide +kernel), ?_, ok_heapOf (by decide +kernel),
    ⟨true, VARIABLEt, 16⟩, by decide +kernel, rfl⟩
  have : (heapOf oddNew).hdr = fun a => if a = 4400 then some ⟨false, VARIABLEt, 16⟩ else if a = 4128 then some ⟨false, CONTt, 248⟩ else
      if a = 4096 then some ⟨false, NUMBERt, 16⟩ else none := rfl
  rintro a ⟨d, hd, hm⟩
  rw [this] at hd
  dsimp only at hd
  split at hd
  · cases hd; cases hm
  · split at hd
    · cases hd; cases hm
    · split at hd
      · cases hd; cases hm
      · cases hd

/-- A block whose only pointer is in the stack saved by a reachable continuation is freed. -/
theorem c77_captured : ∃ h h', captured = .ok h ∧ Reach h [4144] 4128 ∧ (h.hdr 4128).map Hdr.tag = some CONTt ∧
    4112 ∈ h.arr (h.mem (4144 + 208)) ∧ Live h 4096 ∧ runGc 100 h [4144] = .ok h' ∧ ¬ Live h' 4096 := by
  refine ⟨heapOf captured, heapOf (runGc 100 (heapOf captured) [4144]), ok_heapOf (by decide +kernel),
    .root List.mem_cons_self ⟨rfl, ⟨false, CONTt, 256⟩, by decide +kernel⟩, by decide +kernel, by decide +kernel,
    ⟨⟨⟨false, NUMBERt, 16⟩, by decide +kernel⟩, ?_⟩, ok_heapOf (by decide +kernel), fun hl => hl.2 0 (by decide +kernel)⟩
  have : (heapOf captured).free = fun _ => [] := rfl
  intro k; rw [this]; simp

/-- The object in a smob's data field is freed although the smob is reachable (the mark function of the smob type is not called). -/
theorem c77_smob : ∃ h h', smob = .ok h ∧ Reach h [4144] 4128 ∧ (h.hdr 4128).map Hdr.tag = some SMOBt ∧
    h.mem (4144 + 8) = 4112 ∧ Live h 4096 ∧ runGc 100 h [4144] = .ok h' ∧ ¬ Live h' 4096 := by
  refine ⟨heapOf smob, heapOf (runGc 100 (heapOf smob) [4144]), ok_heapOf (by decide +kernel),
    .root List.mem_cons_self ⟨rfl, ⟨false, SMOBt, 64⟩, by decide +kernel⟩, by decide +kernel, by decide +kernel,
    ⟨⟨⟨false, NUMBERt, 16⟩, by decide +kernel⟩, ?_⟩, ok_heapOf (by decide +kernel), fun hl => hl.2 0 (by decide +kernel)⟩
  have : (heapOf smob).free = fun _ => [] := rfl
  intro k; rw [this]; simp

/-- A word on the stack that happens to be the address of a vector freed earlier makes the collector crash. -/
theorem c74_stale_crash : ∃ h, stale = .ok h ∧ ¬ Live h 4096 ∧ runGc 100 h [4112] = .crash :=
  ⟨heapOf stale, ok_heapOf (by decide +kernel), fun hl => hl.2 0 (by decide +kernel), rfl⟩

/-- So does a word that is the first address of the heap: the 16 bytes before it are read. -/
theorem c74_start_crash : runGc 100 start [4096] = .crash := rfl

end Pscm
