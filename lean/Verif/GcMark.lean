import Verif.GcSpec
/-! # Lemmas about the mark phase -/
namespace Pscm.Gc

@[simp] theorem R.bind_ok {α β : Type} (a : α) (f : α → R β) : (R.ok a >>= f) = f a := rfl
@[simp] theorem R.bind_crash {α β : Type} (f : α → R β) : ((R.crash : R α) >>= f) = R.crash := rfl
@[simp] theorem R.bind_more {α β : Type} (f : α → R β) : ((R.more : R α) >>= f) = R.more := rfl
@[simp] theorem R.pure_eq {α : Type} (a : α) : (pure a : R α) = R.ok a := rfl

/-- Equal up to marks. -/
structure Sim (h h' : Heap) : Prop where
  mem : h'.mem = h.mem
  arr : h'.arr = h.arr
  old : h'.old = h.old
  cur : h'.cur = h.cur
  lo : h'.lo = h.lo
  hi : h'.hi = h.hi
  free : h'.free = h.free
  since : h'.since = h.since
  threshold : h'.threshold = h.threshold
  hdr : ∀ a, (h'.hdr a).map (fun d => (d.tag, d.size)) = (h.hdr a).map (fun d => (d.tag, d.size))

theorem Sim.refl (h : Heap) : Sim h h := ⟨rfl, rfl, rfl, rfl, rfl, rfl, rfl, rfl, rfl, fun _ => rfl⟩

theorem Sim.trans {h h1 h2 : Heap} (a : Sim h h1) (b : Sim h1 h2) : Sim h h2 :=
  ⟨b.mem.trans a.mem, b.arr.trans a.arr, b.old.trans a.old, b.cur.trans a.cur, b.lo.trans a.lo, b.hi.trans a.hi,
   b.free.trans a.free, b.since.trans a.since, b.threshold.trans a.threshold, fun x => (b.hdr x).trans (a.hdr x)⟩

theorem Sim.symm {h h1 : Heap} (a : Sim h h1) : Sim h1 h :=
  ⟨a.mem.symm, a.arr.symm, a.old.symm, a.cur.symm, a.lo.symm, a.hi.symm, a.free.symm, a.since.symm, a.threshold.symm, fun x => (a.hdr x).symm⟩

theorem Sim.some {h h1 : Heap} (s : Sim h h1) {a : Nat} {d : Hdr} (hd : h.hdr a = some d) :
    ∃ m, h1.hdr a = some { d with mark := m } := by
  have := s.hdr a
  rw [hd] at this
  cases hh : h1.hdr a with
  | none => rw [hh] at this; cases this
  | some d1 =>
    rw [hh] at this
    simp only [Option.map_some, Option.some.injEq, Prod.mk.injEq] at this
    exact ⟨d1.mark, by rw [← this.1, ← this.2]⟩

theorem Sim.segs {h h1 : Heap} (s : Sim h h1) : h1.segs = h.segs := by unfold Heap.segs; rw [s.old, s.cur]

theorem Sim.mapped {h h1 : Heap} (s : Sim h h1) (p : Nat) : mapped h1 p = mapped h p := by unfold Gc.mapped; rw [s.segs]

theorem sim_setMark (h : Heap) (p : Nat) (b : Bool) : Sim h (setMark h p b) := by
  refine ⟨rfl, rfl, rfl, rfl, rfl, rfl, rfl, rfl, rfl, fun a => ?_⟩
  unfold setMark
  dsimp only
  by_cases ha : a = p
  · rw [if_pos ha, ha]
    cases h.hdr p <;> rfl
  · rw [if_neg ha]

theorem Tiled.sim {h h1 : Heap} (s : Sim h h1) {p e l} (t : Tiled h.hdr p e l) : Tiled h1.hdr p e l := by
  induction t with
  | nil => exact .nil
  | cons hd _ ih =>
    obtain ⟨m, hm⟩ := s.some hd
    exact .cons hm ih

theorem Layout.sim {h h1 : Heap} (s : Sim h h1) (L : Layout h) : Layout h1 where
  seg := by rw [s.segs, s.lo, s.hi]; exact L.seg
  disj := by rw [s.segs]; exact L.disj
  tiled := by
    rw [s.segs]
    intro x hx
    obtain ⟨l, hl⟩ := L.tiled x hx
    exact ⟨l, hl.sim s⟩
  only := by
    rw [s.segs]
    intro a d hd
    obtain ⟨m, hm⟩ := s.symm.some hd
    obtain ⟨x, hx, l, hl, ha⟩ := L.only a _ hm
    exact ⟨x, hx, l, hl.sim s, ha⟩
  size := by
    intro a d hd
    obtain ⟨m, hm⟩ := s.symm.some hd
    have := L.size a _ hm
    exact this

theorem Field.sim {h h1 : Heap} (s : Sim h h1) {a w} (f : Field h a w) : Field h1 a w := by
  cases f with
  | scm hd h1 h2 h3 => obtain ⟨m, hm⟩ := s.some hd; exact .scm hm h1 (by rw [s.mem]; exact h2) (by rw [s.mem]; exact h3)
  | cell hd h1 h2 => obtain ⟨m, hm⟩ := s.some hd; exact .cell hm h1 (by rw [s.mem]; exact h2)
  | element hd h1 h2 => obtain ⟨m, hm⟩ := s.some hd; exact .element hm h1 (by rw [s.mem, s.arr]; exact h2)
  | entry hd h1 h2 h3 =>
    obtain ⟨m, hm⟩ := s.some hd
    exact .entry hm h1 (by rw [s.mem]; exact h2) (by rw [s.mem, s.arr]; exact h3)

theorem PtrTo.sim {h h1 : Heap} (s : Sim h h1) {w a} (p : PtrTo h w a) : PtrTo h1 w a := by
  obtain ⟨rfl, d, hd⟩ := p
  obtain ⟨m, hm⟩ := s.some hd
  exact ⟨rfl, _, hm⟩

theorem Reach.sim {h h1 : Heap} (s : Sim h h1) {roots a} (r : Reach h roots a) : Reach h1 roots a := by
  induction r with
  | root hw p => exact .root hw (p.sim s)
  | step _ f p ih => exact .step ih (f.sim s) (p.sim s)

/-! ## Layout facts -/

theorem OkSize.mod {n : Nat} (h : OkSize n) : n % 16 = 0 ∧ 16 ≤ n := by
  unfold OkSize at h; omega

theorem Tiled.le {hdr p e l} (t : Tiled hdr p e l) : p ≤ e := by
  induction t with
  | nil => omega
  | cons _ _ ih => omega

theorem Tiled.mem_bounds {hdr p e l} (t : Tiled hdr p e l) (hsz : ∀ a d, hdr a = some d → OkSize d.size) :
    ∀ a ∈ l, p ≤ a ∧ (p % 16 = 0 → a % 16 = 0) ∧ ∃ d, hdr a = some d ∧ a + 16 + d.size ≤ e := by
  induction t with
  | nil => intro a ha; cases ha
  | @cons p e l d hd t ih =>
    intro a ha
    have hle := t.le
    have := (hsz _ _ hd).mod
    rcases List.mem_cons.1 ha with rfl | ha
    · exact ⟨by omega, fun h => h, d, hd, by omega⟩
    · obtain ⟨h1, h2, d', hd', h3⟩ := ih a ha
      exact ⟨by omega, fun h => h2 (by omega), d', hd', h3⟩

theorem Tiled.nodup {hdr p e l} (t : Tiled hdr p e l) (hsz : ∀ a d, hdr a = some d → OkSize d.size) : l.Nodup := by
  induction t with
  | nil => exact List.nodup_nil
  | cons hd t ih =>
    refine List.nodup_cons.2 ⟨fun hm => ?_, ih⟩
    have := (t.mem_bounds hsz _ hm).1
    omega

theorem Tiled.disjoint {hdr p e l} (t : Tiled hdr p e l) (hsz : ∀ a d, hdr a = some d → OkSize d.size) {a b : Nat} {da db : Hdr}
    (ha : a ∈ l) (hb : b ∈ l) (hda : hdr a = some da) (hdb : hdr b = some db) (hne : a ≠ b) :
    a + 16 + da.size ≤ b ∨ b + 16 + db.size ≤ a := by
  induction t with
  | nil => cases ha
  | @cons p e l d hd t ih =>
    rcases List.mem_cons.1 ha with rfl | ha' <;> rcases List.mem_cons.1 hb with rfl | hb'
    · exact absurd rfl hne
    · rw [hd] at hda; cases hda
      have := (t.mem_bounds hsz _ hb').1
      omega
    · rw [hd] at hdb; cases hdb
      have := (t.mem_bounds hsz _ ha').1
      omega
    · exact ih ha' hb'

theorem Tiled.unique {hdr p e l l'} (t : Tiled hdr p e l) (t' : Tiled hdr p e l') (hsz : ∀ a d, hdr a = some d → OkSize d.size) : l = l' := by
  induction t generalizing l' with
  | nil =>
    cases t' with
    | nil => rfl
    | cons hd t => have := t.le; omega
  | @cons p e l d hd t ih =>
    cases t' with
    | nil => have := t.le; omega
    | cons hd' t' =>
      rw [hd] at hd'; cases hd'
      rw [ih t']

theorem Layout.okSize {h : Heap} (L : Layout h) : ∀ a d, h.hdr a = some d → OkSize d.size := fun a d hd => (L.size a d hd).1

/-- Where a block lies. -/
theorem Layout.block {h : Heap} (L : Layout h) {a : Nat} {d : Hdr} (hd : h.hdr a = some d) :
    ∃ s ∈ h.segs, s.start ≤ a ∧ a + 16 + d.size ≤ s.bump ∧ a % 16 = 0 ∧ 16 ≤ a ∧ h.lo ≤ a ∧ a + 32 ≤ h.hi ∧ a + 16 + d.size ≤ s.start + s.size := by
  obtain ⟨s, hs, l, t, ha⟩ := L.only a d hd
  obtain ⟨h1, h2, d', hd', h3⟩ := t.mem_bounds L.okSize a ha
  rw [hd] at hd'; cases hd'
  obtain ⟨g1, g2, g3, g4, g5, g6⟩ := L.seg s hs
  have := (L.okSize a d hd).mod
  exact ⟨s, hs, h1, h3, h2 g1, by omega, by omega, by omega, by omega⟩

theorem Layout.mapped {h : Heap} (L : Layout h) {a : Nat} {d : Hdr} (hd : h.hdr a = some d) : mapped h a = true := by
  obtain ⟨s, hs, h1, h2, h3, h4, h5, h6, h7⟩ := L.block hd
  unfold Gc.mapped
  rw [List.any_eq_true]
  have := (L.okSize a d hd).mod
  exact ⟨s, hs, by simp only [Bool.and_eq_true, decide_eq_true_eq]; omega⟩

theorem pairwise_ne {α : Type} {R : α → α → Prop} {l : List α} (hp : l.Pairwise R) (hsym : ∀ x y, R x y → R y x) {a b : α} (ha : a ∈ l)
    (hb : b ∈ l) (hne : a ≠ b) : R a b := by
  induction hp with
  | nil => cases ha
  | cons h1 _ ih =>
    rcases List.mem_cons.1 ha with rfl | ha' <;> rcases List.mem_cons.1 hb with rfl | hb'
    · exact absurd rfl hne
    · exact h1 _ hb'
    · exact hsym _ _ (h1 _ ha')
    · exact ih ha' hb'

/-- Distinct blocks do not overlap. -/
theorem Layout.disjoint {h : Heap} (L : Layout h) {a b : Nat} {da db : Hdr} (hda : h.hdr a = some da) (hdb : h.hdr b = some db) (hne : a ≠ b) :
    a + 16 + da.size ≤ b ∨ b + 16 + db.size ≤ a := by
  obtain ⟨s, hs, l, t, ha⟩ := L.only a da hda
  obtain ⟨s', hs', l', t', hb⟩ := L.only b db hdb
  by_cases he : s = s'
  · subst he
    cases t.unique t' L.okSize
    exact t.disjoint L.okSize ha hb hda hdb hne
  · have := pairwise_ne L.disj (fun x y h => h.symm) hs hs' he
    obtain ⟨h1, _, d, hd, h3⟩ := t.mem_bounds L.okSize a ha
    rw [hda] at hd; cases hd
    obtain ⟨h1', _, d, hd, h3'⟩ := t'.mem_bounds L.okSize b hb
    rw [hdb] at hd; cases hd
    have g := (L.seg s hs).2.2.1
    have g' := (L.seg s' hs').2.2.1
    omega

theorem exists_blocks_aux {h : Heap} (L : Layout h) (ss : List Seg) (hss : ∀ s ∈ ss, s ∈ h.segs) :
    ∃ bs : List Nat, ∀ s ∈ ss, ∀ l, Tiled h.hdr s.start s.bump l → ∀ a ∈ l, a ∈ bs := by
  induction ss with
  | nil => exact ⟨[], fun s hs => by cases hs⟩
  | cons s ss ih =>
    obtain ⟨bs, hbs⟩ := ih fun x hx => hss x (List.mem_cons_of_mem _ hx)
    obtain ⟨l, hl⟩ := L.tiled s (hss s (by simp))
    refine ⟨l ++ bs, fun x hx l' hl' a ha => ?_⟩
    rcases List.mem_cons.1 hx with rfl | hx
    · cases hl.unique hl' L.okSize
      simp [ha]
    · simp [hbs x hx l' hl' a ha]

/-- There are finitely many blocks. -/
theorem Layout.finite {h : Heap} (L : Layout h) : ∃ bs : List Nat, ∀ a d, h.hdr a = some d → a ∈ bs := by
  obtain ⟨bs, hbs⟩ := exists_blocks_aux L h.segs fun _ h => h
  refine ⟨bs, fun a d hd => ?_⟩
  obtain ⟨s, hs, l, t, ha⟩ := L.only a d hd
  exact hbs s hs l t a ha

/-! ## Pushing one word -/

/-- The effect of looking one word up. -/
def Pushed (h : Heap) (st : List Nat) (w : Nat) (h' : Heap) (st' : List Nat) : Prop :=
  (∃ a d, w = a + 16 ∧ h.hdr a = some d ∧ d.mark = false ∧ h' = setMark h a true ∧ st' = a :: st) ∨
  (h' = h ∧ st' = st ∧ ∀ a, PtrTo h w a → Marked h a)

theorem isValid_block {h : Heap} (L : Layout h) {a : Nat} {d : Hdr} (hd : h.hdr a = some d) : isValidBlock h a = .ok true := by
  obtain ⟨s, hs, h1, h2, h3, h4, h5, h6, h7⟩ := L.block hd
  unfold isValidBlock
  rw [if_pos ⟨h5, by omega, h3⟩]
  unfold readHdr
  rw [L.mapped hd, hd]
  rfl

theorem isValid_none {h : Heap} {a : Nat} {b : Bool} (hd : h.hdr a = none) (hv : isValidBlock h a = .ok b) : b = false := by
  unfold isValidBlock readHdr at hv
  by_cases hc : h.lo ≤ a ∧ a + 16 ≤ h.hi ∧ a % 16 = 0
  · rw [if_pos hc] at hv
    by_cases hm : mapped h a = true
    · rw [if_pos hm, hd] at hv; cases hv; rfl
    · rw [if_neg hm] at hv; cases hv
  · rw [if_neg hc] at hv; cases hv; rfl

theorem push_block {h : Heap} (L : Layout h) (st : List Nat) {a : Nat} {d : Hdr} (hd : h.hdr a = some d) :
    pushIfUnmarked h st a = if d.mark then .ok (h, st) else .ok (setMark h a true, a :: st) := by
  unfold pushIfUnmarked
  rw [isValid_block L hd]
  simp [hd]

theorem pushed_block {h : Heap} (L : Layout h) {st : List Nat} {a : Nat} {d : Hdr} (hd : h.hdr a = some d) {h' st'}
    (hp : pushIfUnmarked h st a = .ok (h', st')) : Pushed h st (a + 16) h' st' := by
  rw [push_block L st hd] at hp
  cases hm : d.mark with
  | true =>
    rw [hm] at hp
    cases hp
    refine .inr ⟨rfl, rfl, fun b hb => ?_⟩
    have : b = a := by have := hb.1; omega
    subst this
    exact ⟨d, hd, hm⟩
  | false =>
    rw [hm] at hp
    cases hp
    exact .inl ⟨a, d, rfl, hd, hm, rfl, rfl⟩

theorem tracePtr_ok {h : Heap} (L : Layout h) {st : List Nat} {w : Nat} {h' st'} (hp : tracePtr h st w = .ok (h', st')) : Pushed h st w h' st' := by
  unfold tracePtr at hp
  have skip : (∀ a, PtrTo h w a → False) → R.ok (h, st) = R.ok (h', st') → Pushed h st w h' st' := by
    intro hn he; cases he
    exact .inr ⟨rfl, rfl, fun a ha => (hn a ha).elim⟩
  by_cases hw : w < 16
  · rw [if_pos hw] at hp
    exact skip (fun a ha => by have := ha.1; omega) hp
  · rw [if_neg hw] at hp
    cases hd : h.hdr (w - 16) with
    | some d =>
      rw [isValid_block L hd] at hp
      have := pushed_block L hd hp
      rwa [show w - 16 + 16 = w by omega] at this
    | none =>
      cases hv : isValidBlock h (w - 16) with
      | ok b =>
        have hb := isValid_none hd hv
        subst hb
        rw [hv] at hp
        refine skip (fun a ha => ?_) hp
        obtain ⟨h1, d, h2⟩ := ha
        rw [show w - 16 = a by omega, h2] at hd
        cases hd
      | crash => rw [hv] at hp; cases hp
      | more => rw [hv] at hp; cases hp

theorem markIfValid_ok {h : Heap} (L : Layout h) {st : List Nat} {w : Nat} {h' st'} (hp : markIfValid h st w = .ok (h', st')) :
    Pushed h st w h' st' := by
  unfold markIfValid at hp
  have skip : (∀ a, PtrTo h w a → False) → R.ok (h, st) = R.ok (h', st') → Pushed h st w h' st' := by
    intro hn he; cases he
    exact .inr ⟨rfl, rfl, fun a ha => (hn a ha).elim⟩
  have loc : ∀ a, PtrTo h w a → w ≠ 0 ∧ h.lo ≤ w ∧ w < h.hi ∧ w % 16 = 0 := by
    rintro a ⟨rfl, d, hd⟩
    obtain ⟨s, hs, h1, h2, h3, h4, h5, h6, h7⟩ := L.block hd
    omega
  by_cases h0 : w = 0
  · rw [if_pos h0] at hp; exact skip (fun a ha => (loc a ha).1 h0) hp
  rw [if_neg h0] at hp
  by_cases h1 : w < h.lo ∨ h.hi ≤ w
  · rw [if_pos h1] at hp; exact skip (fun a ha => by have := loc a ha; omega) hp
  rw [if_neg h1] at hp
  by_cases h2 : w % 16 ≠ 0
  · rw [if_pos h2] at hp; exact skip (fun a ha => h2 (loc a ha).2.2.2) hp
  rw [if_neg h2] at hp
  unfold readHdr at hp
  by_cases hm : mapped h (w - 16) = true
  · rw [if_pos hm] at hp
    cases hd : h.hdr (w - 16) with
    | some d =>
      rw [hd] at hp
      have := pushed_block L hd hp
      by_cases hw : w < 16
      · omega
      · rwa [show w - 16 + 16 = w by omega] at this
    | none =>
      rw [hd] at hp
      refine skip (fun a ha => ?_) hp
      obtain ⟨h1, d, h2⟩ := ha
      rw [show w - 16 = a by omega, h2] at hd
      cases hd
  · rw [if_neg hm] at hp; cases hp

/-! ## Marks and the measure -/

theorem marked_setMark {h : Heap} {p : Nat} {d : Hdr} (hd : h.hdr p = some d) (a : Nat) :
    Marked (setMark h p true) a ↔ a = p ∨ Marked h a := by
  unfold Marked setMark
  dsimp only
  by_cases ha : a = p
  · subst ha
    simp [hd]
  · simp [ha]

theorem Pushed.sim {h h' : Heap} {st st' w} (hp : Pushed h st w h' st') : Sim h h' := by
  rcases hp with ⟨a, d, _, _, _, rfl, _⟩ | ⟨rfl, _, _⟩
  · exact sim_setMark h a true
  · exact Sim.refl _

theorem Pushed.marks {h h' : Heap} {st st' w} (hp : Pushed h st w h' st') :
    (∀ a, Marked h a → Marked h' a) ∧ (∀ a, PtrTo h w a → Marked h' a) ∧ (∀ a, Marked h' a → Marked h a ∨ PtrTo h w a ∧ a ∈ st') ∧
    (∀ a ∈ st, a ∈ st') ∧ (∀ a ∈ st', a ∈ st ∨ Marked h' a) := by
  rcases hp with ⟨a, d, rfl, hd, hm, rfl, rfl⟩ | ⟨rfl, rfl, h3⟩
  · have hk := fun x => marked_setMark hd x
    refine ⟨fun x hx => (hk x).2 (.inr hx), fun x hx => (hk x).2 (.inl (by have := hx.1; omega)), fun x hx => ?_, fun x hx => ?_, fun x hx => ?_⟩
    · rcases (hk x).1 hx with rfl | hx
      · exact .inr ⟨⟨rfl, d, hd⟩, by simp⟩
      · exact .inl hx
    · exact List.mem_cons_of_mem _ hx
    · rcases List.mem_cons.1 hx with rfl | hx
      · exact .inr ((hk x).2 (.inl rfl))
      · exact .inl hx
  · exact ⟨fun _ h => h, h3, fun a ha => .inl ha, fun _ h => h, fun _ h => .inl h⟩

def isMarked (h : Heap) (a : Nat) : Bool := match h.hdr a with
  | some d => d.mark
  | none => false

theorem isMarked_iff {h : Heap} {a : Nat} : isMarked h a = true ↔ Marked h a := by
  unfold isMarked Marked
  cases h.hdr a <;> simp

/-- Unmarked blocks, plus blocks still to be traced. -/
def measure (bs : List Nat) (h : Heap) (st : List Nat) : Nat := bs.countP (fun a => !isMarked h a) + st.length

theorem countP_lt {p q : Nat → Bool} {l : List Nat} (himp : ∀ a, q a = true → p a = true) {x : Nat} (hx : x ∈ l) (hp : p x = true)
    (hq : q x = false) : l.countP q < l.countP p := by
  induction l with
  | nil => cases hx
  | cons a l ih =>
    rw [List.countP_cons, List.countP_cons]
    have hle : l.countP q ≤ l.countP p := List.countP_mono_left fun a _ => himp a
    rcases List.mem_cons.1 hx with rfl | hx
    · rw [hp, hq]; simp; omega
    · have := ih hx
      by_cases ha : q a = true
      · rw [ha, himp a ha]; simp; omega
      · have : q a = false := by simpa using ha
        rw [this]
        simp
        omega

theorem Pushed.measure_le {h h' : Heap} {st st' w} {bs : List Nat} (hbs : ∀ a d, h.hdr a = some d → a ∈ bs) (hp : Pushed h st w h' st') :
    measure bs h' st' ≤ measure bs h st := by
  rcases hp with ⟨a, d, rfl, hd, hm, rfl, rfl⟩ | ⟨rfl, rfl, _⟩
  · unfold measure
    have h1 : isMarked h a = false := by unfold isMarked; rw [hd]; exact hm
    have h2 : isMarked (setMark h a true) a = true := isMarked_iff.2 ((marked_setMark hd a).2 (.inl rfl))
    have := countP_lt (p := fun x => !isMarked h x) (q := fun x => !isMarked (setMark h a true) x) (l := bs) (x := a) (by
        intro x hx
        simp only [Bool.not_eq_true'] at hx ⊢
        cases hxx : isMarked h x with
        | false => rfl
        | true =>
          have := isMarked_iff.2 ((marked_setMark hd x).2 (.inr (isMarked_iff.1 hxx)))
          rw [this] at hx; cases hx) (hbs a d hd) (by simp [h1]) (by simp [h2])
    simp only [List.length_cons]
    omega
  · exact Nat.le_refl _

/-! ## Several words -/

/-- The effect of looking words up one after the other. -/
inductive PushedAll : Heap → List Nat → List Nat → Heap → List Nat → Prop
  | nil {h st} : PushedAll h st [] h st
  | cons {h st w ws h1 st1 h2 st2} : Pushed h st w h1 st1 → PushedAll h1 st1 ws h2 st2 → PushedAll h st (w :: ws) h2 st2

theorem tracePtrs_ok {ws : List Nat} : ∀ {h : Heap} (_ : Layout h) {st h' st'}, tracePtrs h st ws = .ok (h', st') → PushedAll h st ws h' st' := by
  induction ws with
  | nil => intro h _ st h' st' hp; cases hp; exact .nil
  | cons w ws ih =>
    intro h L st h' st' hp
    unfold tracePtrs at hp
    cases h1 : tracePtr h st w with
    | ok q =>
      obtain ⟨h1', st1⟩ := q
      rw [h1] at hp
      have p1 := tracePtr_ok L h1
      exact .cons p1 (ih (L.sim p1.sim) hp)
    | crash => rw [h1] at hp; cases hp
    | more => rw [h1] at hp; cases hp

theorem scanRoots_ok {ws : List Nat} : ∀ {h : Heap} (_ : Layout h) {st h' st'}, scanRoots h st ws = .ok (h', st') → PushedAll h st ws h' st' := by
  induction ws with
  | nil => intro h _ st h' st' hp; cases hp; exact .nil
  | cons w ws ih =>
    intro h L st h' st' hp
    unfold scanRoots at hp
    cases h1 : markIfValid h st w with
    | ok q =>
      obtain ⟨h1', st1⟩ := q
      rw [h1] at hp
      have p1 := markIfValid_ok L h1
      exact .cons p1 (ih (L.sim p1.sim) hp)
    | crash => rw [h1] at hp; cases hp
    | more => rw [h1] at hp; cases hp

theorem PushedAll.sim {h st ws h' st'} (hp : PushedAll h st ws h' st') : Sim h h' := by
  induction hp with
  | nil => exact Sim.refl _
  | cons p _ ih => exact p.sim.trans ih

theorem PushedAll.marks {h st ws h' st'} (hp : PushedAll h st ws h' st') :
    (∀ a, Marked h a → Marked h' a) ∧ (∀ w ∈ ws, ∀ a, PtrTo h w a → Marked h' a) ∧
    (∀ a, Marked h' a → Marked h a ∨ (∃ w ∈ ws, PtrTo h w a) ∧ a ∈ st') ∧
    (∀ a ∈ st, a ∈ st') ∧ (∀ a ∈ st', a ∈ st ∨ Marked h' a) := by
  induction hp with
  | nil => exact ⟨fun _ h => h, fun w hw => (by cases hw), fun a ha => .inl ha, fun _ h => h, fun _ h => .inl h⟩
  | @cons h st w ws h1 st1 h2 st2 p q ih =>
    obtain ⟨a1, a2, a3, a4, a5⟩ := p.marks
    obtain ⟨b1, b2, b3, b4, b5⟩ := ih
    refine ⟨fun a ha => b1 a (a1 a ha), fun w' hw' a ha => ?_, fun a ha => ?_, fun a ha => b4 a (a4 a ha), fun a ha => ?_⟩
    · rcases List.mem_cons.1 hw' with rfl | hw'
      · exact b1 a (a2 a ha)
      · exact b2 w' hw' a (ha.sim p.sim)
    · rcases b3 a ha with ha | ⟨⟨w', hw', hp'⟩, hst⟩
      · rcases a3 a ha with ha | ⟨hp', hst⟩
        · exact .inl ha
        · exact .inr ⟨⟨w, by simp, hp'⟩, b4 a hst⟩
      · exact .inr ⟨⟨w', by simp [hw'], hp'.sim p.sim.symm⟩, hst⟩
    · rcases b5 a ha with ha | ha
      · rcases a5 a ha with ha | ha
        · exact .inl ha
        · exact .inr (b1 a ha)
      · exact .inr ha

theorem PushedAll.measure_le {h st ws h' st'} {bs : List Nat} (hp : PushedAll h st ws h' st') (hbs : ∀ a d, h.hdr a = some d → a ∈ bs) :
    measure bs h' st' ≤ measure bs h st := by
  induction hp with
  | nil => exact Nat.le_refl _
  | @cons h st w ws h1 st1 h2 st2 p _ ih =>
    refine Nat.le_trans (ih fun a d hd => ?_) (p.measure_le hbs)
    obtain ⟨m, hm⟩ := p.sim.symm.some hd
    exact hbs a _ hm

/-! ## Trace functions -/

theorem hasPointer_iff (t : Nat) : hasPointer t = true ↔ PointerType t := by
  unfold hasPointer PointerType
  simp only [List.mem_cons, List.not_mem_nil, or_false, decide_eq_true_eq]
  omega

/-- The words the trace function looks up are the pointer fields (and possibly null). -/
theorem traceWords_spec {h : Heap} {a : Nat} {d : Hdr} {ws : List Nat} (hd : h.hdr a = some d) (ht : traceWords h d.tag (a + 16) = .ok ws) :
    ∀ w, (w ∈ ws → w = 0 ∨ Field h a w) ∧ (Field h a w → w ∈ ws ∨ w = 0) := by
  have arrCase : (d.tag = VECTORt ∨ d.tag = HASHt) → readArr h (h.mem (a + 16)) (h.mem (a + 16 + 8)) = .ok ws →
      ∀ w, (w ∈ ws → w = 0 ∨ Field h a w) ∧ (Field h a w → w ∈ ws ∨ w = 0) := by
    intro hv hr w
    have hws : ws = (h.arr (h.mem (a + 16))).take (h.mem (a + 16 + 8)) := by
      unfold readArr at hr
      by_cases hn : h.mem (a + 16 + 8) = 0
      · rw [if_pos hn] at hr; cases hr; rw [hn]; simp
      · rw [if_neg hn] at hr
        by_cases hp : h.mem (a + 16) = 0
        · rw [if_pos hp] at hr; cases hr
        · rw [if_neg hp] at hr; cases hr; rfl
    refine ⟨fun hw => .inr (.element hd hv (hws ▸ hw)), fun hf => ?_⟩
    cases hf with
    | scm hd' h1 _ _ =>
      rw [hd] at hd'; cases hd'
      rcases hv with hv | hv <;> (rw [h1] at hv; exact absurd hv (by decide))
    | cell hd' h1 _ =>
      rw [hd] at hd'; cases hd'
      exfalso
      rcases hv with hv | hv <;> (rw [hv] at h1; exact absurd h1 (by simp [pointerFields, LISTt, PROCt, FUNCt, CONTt, MODULEt, PORTt, ENVt, PROMISEt, MACROt, VARIABLEt, VECTORt, HASHt]))
    | element _ _ h2 => exact .inl (hws ▸ h2)
    | entry hd' h1 _ _ =>
      rw [hd] at hd'; cases hd'
      rcases hv with hv | hv <;> (rw [h1] at hv; exact absurd hv (by decide))
  have cellCase : d.tag ≠ SCMt → ¬ (d.tag = VECTORt ∨ d.tag = HASHt) → d.tag ≠ ENVt →
      (∀ w, w ∈ ws ↔ ∃ off ∈ pointerFields d.tag, h.mem (a + 16 + off) = w) →
      ∀ w, (w ∈ ws → w = 0 ∨ Field h a w) ∧ (Field h a w → w ∈ ws ∨ w = 0) := by
    intro h1 h2 h3 hws w
    refine ⟨fun hw => ?_, fun hf => ?_⟩
    · obtain ⟨off, ho, he⟩ := (hws w).1 hw
      exact .inr (.cell hd ho he)
    · cases hf with
      | scm hd' g _ _ => rw [hd] at hd'; cases hd'; exact absurd g h1
      | cell hd' g1 g2 => rw [hd] at hd'; cases hd'; exact .inl ((hws w).2 ⟨_, g1, g2⟩)
      | element hd' g _ => rw [hd] at hd'; cases hd'; exact absurd g h2
      | entry hd' g _ _ => rw [hd] at hd'; cases hd'; exact absurd g h3
  unfold traceWords at ht
  by_cases t0 : d.tag = SCMt
  · rw [if_pos t0] at ht
    intro w
    have hcell : ∀ off, off ∉ pointerFields SCMt := by intro off; simp [pointerFields, LISTt, PROCt, FUNCt, CONTt, MODULEt, PORTt, ENVt, PROMISEt, MACROt, VARIABLEt, SCMt]
    refine ⟨fun hw => ?_, fun hf => ?_⟩
    · cases ht
      by_cases hv : h.mem (a + 16 + 8) = 0
      · simp [hv] at hw
      · by_cases hp : hasPointer (h.mem (a + 16)) = true
        · simp only [hv, if_false, hp, if_true, List.mem_singleton] at hw
          exact .inr (.scm hd t0 ((hasPointer_iff _).1 hp) hw.symm)
        · simp [hv, hp] at hw
    · cases hf with
      | scm hd' _ g1 g2 =>
        cases ht
        by_cases hv : h.mem (a + 16 + 8) = 0
        · exact .inr (by rw [← g2, hv])
        · left; rw [if_neg hv, if_pos ((hasPointer_iff _).2 g1), g2]; simp
      | cell hd' g1 _ => rw [hd] at hd'; cases hd'; rw [t0] at g1; exact absurd g1 (hcell _)
      | element hd' g _ => rw [hd] at hd'; cases hd'; rcases g with g | g <;> (rw [t0] at g; exact absurd g (by decide))
      | entry hd' g _ _ => rw [hd] at hd'; cases hd'; rw [t0] at g; exact absurd g (by decide)
  rw [if_neg t0] at ht
  by_cases t1 : d.tag = LISTt
  · rw [if_pos t1] at ht; cases ht
    exact cellCase t0 (by rw [t1]; decide) (by rw [t1]; decide) fun w => by rw [t1]; simp [pointerFields, eq_comm]
  rw [if_neg t1] at ht
  by_cases t2 : d.tag = PROCt
  · rw [if_pos t2] at ht; cases ht
    exact cellCase t0 (by rw [t2]; decide) (by rw [t2]; decide) fun w => by rw [t2]; simp [pointerFields, eq_comm, PROCt, LISTt]
  rw [if_neg t2] at ht
  by_cases t3 : d.tag = FUNCt
  · rw [if_pos t3] at ht; cases ht
    exact cellCase t0 (by rw [t3]; decide) (by rw [t3]; decide) fun w => by rw [t3]; simp [pointerFields, eq_comm, PROCt, LISTt, FUNCt]
  rw [if_neg t3] at ht
  by_cases t4 : d.tag = CONTt
  · rw [if_pos t4] at ht; cases ht
    exact cellCase t0 (by rw [t4]; decide) (by rw [t4]; decide) fun w => by
      rw [t4]; simp [pointerFields, eq_comm, PROCt, LISTt, FUNCt, CONTt]
      constructor
      · rintro (h | h | h) <;> simp [h]
      · rintro (h | h | h) <;> simp [h]
  rw [if_neg t4] at ht
  by_cases t5 : d.tag = MODULEt
  · rw [if_pos t5] at ht; cases ht
    exact cellCase t0 (by rw [t5]; decide) (by rw [t5]; decide) fun w => by
      rw [t5]; simp [pointerFields, eq_comm, PROCt, LISTt, FUNCt, CONTt, MODULEt]
  rw [if_neg t5] at ht
  by_cases t6 : d.tag = PORTt
  · rw [if_pos t6] at ht; cases ht
    exact cellCase t0 (by rw [t6]; decide) (by rw [t6]; decide) fun w => by
      rw [t6]; simp [pointerFields, eq_comm, PROCt, LISTt, FUNCt, CONTt, MODULEt, PORTt]
  rw [if_neg t6] at ht
  by_cases t7 : d.tag = VECTORt
  · rw [if_pos t7] at ht; exact arrCase (.inl t7) ht
  rw [if_neg t7] at ht
  by_cases t8 : d.tag = HASHt
  · rw [if_pos t8] at ht; exact arrCase (.inr t8) ht
  rw [if_neg t8] at ht
  by_cases t9 : d.tag = ENVt
  · rw [if_pos t9] at ht
    intro w
    cases ht
    have hmem : w ∈ (if h.mem (a + 16 + 8) = 0 then [] else h.arr (h.mem (a + 16 + 8))) ++ [h.mem (a + 16 + 16), h.mem (a + 16 + 24)] ↔
        (h.mem (a + 16 + 8) ≠ 0 ∧ w ∈ h.arr (h.mem (a + 16 + 8))) ∨ w = h.mem (a + 16 + 16) ∨ w = h.mem (a + 16 + 24) := by
      by_cases hz : h.mem (a + 16 + 8) = 0 <;> simp [hz]
    rw [hmem]
    have hpf : pointerFields ENVt = [16, 24] := rfl
    refine ⟨?_, fun hf => ?_⟩
    · rintro (⟨h1, h2⟩ | h1 | h1)
      · exact .inr (.entry hd t9 h1 h2)
      · exact .inr (.cell (off := 16) hd (by rw [t9, hpf]; simp) h1.symm)
      · exact .inr (.cell (off := 24) hd (by rw [t9, hpf]; simp) h1.symm)
    · cases hf with
      | scm hd' g _ _ => rw [hd] at hd'; cases hd'; exact absurd g t0
      | cell hd' g1 g2 =>
        rw [hd] at hd'; cases hd'
        rw [t9, hpf] at g1
        simp only [List.mem_cons, List.not_mem_nil, or_false] at g1
        rcases g1 with rfl | rfl
        · exact .inl (.inr (.inl g2.symm))
        · exact .inl (.inr (.inr g2.symm))
      | element hd' g _ => rw [hd] at hd'; cases hd'; rcases g with g | g <;> (rw [t9] at g; exact absurd g (by decide))
      | entry hd' _ g1 g2 => exact .inl (.inl ⟨g1, g2⟩)
  rw [if_neg t9] at ht
  by_cases t13 : d.tag = PROMISEt
  · rw [if_pos t13] at ht; cases ht
    exact cellCase t0 (by rw [t13]; decide) (by rw [t13]; decide) fun w => by
      rw [t13]; simp [pointerFields, eq_comm, PROCt, LISTt, FUNCt, CONTt, MODULEt, PORTt, ENVt, PROMISEt]
  rw [if_neg t13] at ht
  by_cases t14 : d.tag = MACROt
  · rw [if_pos t14] at ht; cases ht
    exact cellCase t0 (by rw [t14]; decide) (by rw [t14]; decide) fun w => by
      rw [t14]; simp [pointerFields, eq_comm, PROCt, LISTt, FUNCt, CONTt, MODULEt, PORTt, ENVt, PROMISEt, MACROt]
  rw [if_neg t14] at ht
  by_cases t15 : d.tag = VARIABLEt
  · rw [if_pos t15] at ht; cases ht
    exact cellCase t0 (by rw [t15]; decide) (by rw [t15]; decide) fun w => by
      rw [t15]; simp [pointerFields, eq_comm, PROCt, LISTt, FUNCt, CONTt, MODULEt, PORTt, ENVt, PROMISEt, MACROt, VARIABLEt]
  rw [if_neg t15] at ht
  cases ht
  exact cellCase t0 (by simp [t7, t8]) t9 fun w => by simp [pointerFields, t1, t2, t3, t4, t5, t6, t9, t13, t14, t15]

/-! ## The loop -/

/-- The invariant of the mark phase: what is marked is reachable, blocks to be traced are marked, and traced blocks have marked children. -/
structure MarkInv (h0 : Heap) (roots : List Nat) (h : Heap) (st : List Nat) : Prop where
  sim : Sim h0 h
  sound : ∀ a, Marked h a → Reach h0 roots a
  stack : ∀ a ∈ st, Marked h a
  black : ∀ a, Marked h a → a ∉ st → ∀ w b, Field h0 a w → PtrTo h0 w b → Marked h b
  root : ∀ w ∈ roots, ∀ a, PtrTo h0 w a → Marked h a

theorem ptrTo_zero {h : Heap} {a : Nat} : ¬ PtrTo h 0 a := fun h => by have := h.1; omega

theorem markLoop_inv {h0 : Heap} {roots : List Nat} (L : Layout h0) : ∀ (n : Nat) {h : Heap} {st : List Nat} {h' : Heap}, MarkInv h0 roots h st →
    markLoop n h st = .ok h' → MarkInv h0 roots h' []
  | n, h, [], h', inv, hr => by
    have : h = h' := by unfold markLoop at hr; cases hr; rfl
    subst this; exact inv
  | 0, h, b :: st, h', inv, hr => by cases hr
  | n + 1, h, b :: st, h', inv, hr => by
    unfold markLoop at hr
    obtain ⟨d, hd, _⟩ := inv.stack b (by simp)
    rw [hd] at hr
    dsimp only at hr
    cases hw : traceWords h d.tag (b + 16) with
    | crash => rw [hw] at hr; cases hr
    | more => rw [hw] at hr; cases hr
    | ok ws =>
      rw [hw] at hr
      cases hp : tracePtrs h st ws with
      | crash => rw [R.bind_ok, hp] at hr; cases hr
      | more => rw [R.bind_ok, hp] at hr; cases hr
      | ok q =>
        obtain ⟨h1, st1⟩ := q
        rw [R.bind_ok, hp] at hr
        refine markLoop_inv L n ?_ hr
        have P := tracePtrs_ok (L.sim inv.sim) hp
        obtain ⟨m1, m2, m3, m4, m5⟩ := P.marks
        have hf := traceWords_spec hd hw
        have back : ∀ {w a}, PtrTo h w a → PtrTo h0 w a := fun hp => hp.sim inv.sim.symm
        refine ⟨inv.sim.trans P.sim, fun a ha => ?_, fun a ha => ?_, fun a ha hst w c hfw hpt => ?_, fun w hw' a ha => m1 a (inv.root w hw' a ha)⟩
        · rcases m3 a ha with ha | ⟨⟨w, hw', hpt⟩, _⟩
          · exact inv.sound a ha
          · rcases (hf w).1 hw' with rfl | hfw
            · exact absurd hpt ptrTo_zero
            · exact .step (inv.sound b (inv.stack b (by simp))) (hfw.sim inv.sim.symm) (back hpt)
        · rcases m5 a ha with ha | ha
          · exact m1 a (inv.stack a (by simp [ha]))
          · exact ha
        · rcases m3 a ha with ha | ⟨_, h2⟩
          · by_cases hb : a = b
            · subst hb
              rcases (hf w).2 (hfw.sim inv.sim) with hw' | rfl
              · exact m2 w hw' c (hpt.sim inv.sim)
              · exact absurd hpt ptrTo_zero
            · refine m1 c (inv.black a ha (fun hm => ?_) w c hfw hpt)
              rcases List.mem_cons.1 hm with h | h
              · exact hb h
              · exact hst (m4 a h)
          · exact absurd h2 hst

theorem MarkInv.done {h0 h : Heap} {roots : List Nat} (inv : MarkInv h0 roots h []) (a : Nat) : Marked h a ↔ Reach h0 roots a := by
  refine ⟨inv.sound a, fun hr => ?_⟩
  induction hr with
  | root hw hp => exact inv.root _ hw _ hp
  | step _ hf hp ih => exact inv.black _ ih (by simp) _ _ hf hp

theorem markPhase_ok {h h' : Heap} {roots : List Nat} {n : Nat} (L : Layout h) (hc : ∀ a, ¬ Marked h a) (hr : markPhase n h roots = .ok h') :
    MarkInv h roots h' [] := by
  unfold markPhase at hr
  cases hp : scanRoots h [] roots with
  | crash => rw [hp] at hr; cases hr
  | more => rw [hp] at hr; cases hr
  | ok q =>
    obtain ⟨h1, st1⟩ := q
    rw [hp] at hr
    have P := scanRoots_ok L hp
    obtain ⟨m1, m2, m3, m4, m5⟩ := P.marks
    refine markLoop_inv L n ⟨P.sim, fun a ha => ?_, fun a ha => ?_, fun a ha hst => ?_, m2⟩ hr
    · rcases m3 a ha with ha | ⟨⟨w, hw, hpt⟩, _⟩
      · exact absurd ha (hc a)
      · exact .root hw hpt
    · rcases m5 a ha with ha | ha
      · cases ha
      · exact ha
    · rcases m3 a ha with ha | ⟨_, h2⟩
      · exact absurd ha (hc a)
      · exact absurd h2 hst

/-! ## Termination and absence of crashes -/

theorem isValid_ne_more (h : Heap) (a : Nat) : isValidBlock h a ≠ .more := by
  unfold isValidBlock readHdr
  split
  · split <;> simp
  · simp

theorem push_ne_more (h : Heap) (st : List Nat) (a : Nat) : pushIfUnmarked h st a ≠ .more := by
  unfold pushIfUnmarked
  cases hv : isValidBlock h a with
  | ok b =>
    rw [R.bind_ok]
    split
    · split
      · split <;> simp
      · simp
    · simp
  | crash => simp
  | more => exact absurd hv (isValid_ne_more h a)

theorem tracePtrs_ne_more : ∀ (ws : List Nat) (h : Heap) (st : List Nat), tracePtrs h st ws ≠ .more
  | [], h, st => by unfold tracePtrs; simp
  | w :: ws, h, st => by
    unfold tracePtrs
    cases hv : tracePtr h st w with
    | ok q => exact tracePtrs_ne_more ws q.1 q.2
    | crash => simp
    | more =>
      exfalso
      unfold tracePtr at hv
      split at hv
      · cases hv
      · cases hb : isValidBlock h (w - 16) with
        | ok b =>
          rw [hb, R.bind_ok] at hv
          split at hv
          · exact push_ne_more _ _ _ hv
          · cases hv
        | crash => rw [hb] at hv; cases hv
        | more => exact isValid_ne_more _ _ hb

theorem scanRoots_ne_more : ∀ (ws : List Nat) (h : Heap) (st : List Nat), scanRoots h st ws ≠ .more
  | [], h, st => by unfold scanRoots; simp
  | w :: ws, h, st => by
    unfold scanRoots
    cases hv : markIfValid h st w with
    | ok q => exact scanRoots_ne_more ws q.1 q.2
    | crash => simp
    | more =>
      exfalso
      unfold markIfValid at hv
      split at hv
      · cases hv
      · split at hv
        · cases hv
        · split at hv
          · cases hv
          · unfold readHdr at hv
            split at hv
            · rw [R.bind_ok] at hv
              split at hv
              · exact push_ne_more _ _ _ hv
              · cases hv
            · cases hv

theorem ite_ne {α : Type} {c : Prop} [Decidable c] {a b x : α} (h1 : c → a ≠ x) (h2 : ¬ c → b ≠ x) : (if c then a else b) ≠ x := by
  split
  · exact h1 ‹_›
  · exact h2 ‹_›

theorem traceWords_ne_more (h : Heap) (t o : Nat) : traceWords h t o ≠ .more := by
  have arr : ∀ p n, readArr h p n ≠ .more := by
    intro p n
    unfold readArr
    split
    · simp
    · split <;> simp
  have ok : ∀ l : List Nat, (pure l : R (List Nat)) ≠ .more := fun l => by simp
  unfold traceWords
  repeat' first
    | exact ok _
    | exact arr _ _
    | refine ite_ne (fun _ => ?_) (fun _ => ?_)

theorem markLoop_terminates (bs : List Nat) : ∀ (n : Nat) (h : Heap) (st : List Nat), Layout h → (∀ a d, h.hdr a = some d → a ∈ bs) →
    measure bs h st ≤ n → markLoop n h st ≠ .more
  | n, h, [], _, _, _ => by unfold markLoop; simp
  | 0, h, b :: st, _, _, hn => by unfold measure at hn; simp at hn
  | n + 1, h, b :: st, L, hbs, hn => by
    have hn' : measure bs h st ≤ n := by unfold measure at hn ⊢; simp only [List.length_cons] at hn; omega
    unfold markLoop
    cases hd : h.hdr b with
    | none => exact markLoop_terminates bs n h st L hbs hn'
    | some d =>
      dsimp only
      cases hw : traceWords h d.tag (b + 16) with
      | crash => simp
      | more => exact absurd hw (traceWords_ne_more _ _ _)
      | ok ws =>
        rw [R.bind_ok]
        cases hp : tracePtrs h st ws with
        | crash => simp
        | more => exact absurd hp (tracePtrs_ne_more _ _ _)
        | ok q =>
          obtain ⟨h1, st1⟩ := q
          rw [R.bind_ok]
          have P := tracePtrs_ok L hp
          refine markLoop_terminates bs n h1 st1 (L.sim P.sim) (fun a d hd => ?_) (Nat.le_trans (P.measure_le hbs) hn')
          obtain ⟨m, hm⟩ := P.sim.symm.some hd
          exact hbs a _ hm

theorem isValid_safe {h : Heap} {w : Nat} (hw : 16 ≤ w) (hs : SafeWord h w) : isValidBlock h (w - 16) ≠ .crash := by
  unfold isValidBlock readHdr
  split
  · rename_i hc
    rcases hs with h1 | h1 | h1 | h1
    · omega
    · omega
    · omega
    · rw [if_pos h1]; simp
  · simp

theorem push_safe {h : Heap} {st : List Nat} {a : Nat} (hs : isValidBlock h a ≠ .crash) : pushIfUnmarked h st a ≠ .crash := by
  unfold pushIfUnmarked
  cases hv : isValidBlock h a with
  | ok b =>
    rw [R.bind_ok]
    split
    · split
      · split <;> simp
      · simp
    · simp
  | crash => exact absurd hv hs
  | more => simp

theorem SafeWord.sim {h h1 : Heap} (s : Sim h h1) {w : Nat} (hs : SafeWord h w) : SafeWord h1 w := by
  unfold SafeWord at *
  rw [s.lo, s.hi, s.mapped]
  exact hs

theorem tracePtrs_safe : ∀ (ws : List Nat) (h : Heap) (st : List Nat), Layout h → (∀ w ∈ ws, SafeWord h w) → tracePtrs h st ws ≠ .crash
  | [], h, st, _, _ => by unfold tracePtrs; simp
  | w :: ws, h, st, L, hs => by
    unfold tracePtrs
    cases hv : tracePtr h st w with
    | ok q =>
      have p := tracePtr_ok L (h' := q.1) (st' := q.2) hv
      exact tracePtrs_safe ws q.1 q.2 (L.sim p.sim) fun x hx => (hs x (by simp [hx])).sim p.sim
    | more => simp
    | crash =>
      exfalso
      unfold tracePtr at hv
      by_cases hw : w < 16
      · rw [if_pos hw] at hv; cases hv
      · rw [if_neg hw] at hv
        have hv' := isValid_safe (by omega) (hs w (by simp))
        cases hb : isValidBlock h (w - 16) with
        | ok b =>
          rw [hb, R.bind_ok] at hv
          split at hv
          · exact push_safe hv' hv
          · cases hv
        | crash => exact hv' hb
        | more => rw [hb] at hv; cases hv

theorem scanRoots_safe : ∀ (ws : List Nat) (h : Heap) (st : List Nat), Layout h → (∀ w ∈ ws, SafeWord h w) → scanRoots h st ws ≠ .crash
  | [], h, st, _, _ => by unfold scanRoots; simp
  | w :: ws, h, st, L, hs => by
    unfold scanRoots
    cases hv : markIfValid h st w with
    | ok q =>
      have p := markIfValid_ok L (h' := q.1) (st' := q.2) hv
      exact scanRoots_safe ws q.1 q.2 (L.sim p.sim) fun x hx => (hs x (by simp [hx])).sim p.sim
    | more => simp
    | crash =>
      exfalso
      have hsw := hs w (by simp)
      unfold markIfValid at hv
      by_cases h0 : w = 0
      · rw [if_pos h0] at hv; cases hv
      rw [if_neg h0] at hv
      by_cases h1 : w < h.lo ∨ h.hi ≤ w
      · rw [if_pos h1] at hv; cases hv
      rw [if_neg h1] at hv
      by_cases h2 : w % 16 ≠ 0
      · rw [if_pos h2] at hv; cases hv
      rw [if_neg h2] at hv
      have hm : mapped h (w - 16) = true := by
        rcases hsw with g | g | g | g
        · omega
        · omega
        · omega
        · exact g
      unfold readHdr at hv
      rw [if_pos hm, R.bind_ok] at hv
      split at hv
      · exact push_safe (isValid_safe (by omega) hsw) hv
      · cases hv

theorem traceWords_safe {h : Heap} {a : Nat} {d : Hdr} (hd : h.hdr a = some d) (ha : ArrOk h a) : traceWords h d.tag (a + 16) ≠ .crash := by
  have arr : d.tag = VECTORt ∨ d.tag = HASHt → readArr h (h.mem (a + 16)) (h.mem (a + 16 + 8)) ≠ .crash := by
    intro ht
    unfold readArr
    split
    · simp
    · split
      · rename_i h1 h2
        exact absurd h2 (ha d hd ht h1)
      · simp
  have ok : ∀ l : List Nat, (pure l : R (List Nat)) ≠ .crash := fun l => by simp
  unfold traceWords
  repeat' first
    | exact ok _
    | exact arr (.inl ‹_›)
    | exact arr (.inr ‹_›)
    | refine ite_ne (fun _ => ?_) (fun _ => ?_)

theorem markLoop_safe {h0 : Heap} {roots : List Nat} (L : Layout h0)
    (hs : ∀ a, Reach h0 roots a → ArrOk h0 a ∧ ∀ w, Field h0 a w → SafeWord h0 w) (hlo : 0 < h0.lo) :
    ∀ (n : Nat) (h : Heap) (st : List Nat), MarkInv h0 roots h st → markLoop n h st ≠ .crash
  | n, h, [], _ => by unfold markLoop; simp
  | 0, h, b :: st, _ => by unfold markLoop; simp
  | n + 1, h, b :: st, inv => by
    obtain ⟨d, hd, hm⟩ := inv.stack b (by simp)
    have hreach := inv.sound b (inv.stack b (by simp))
    obtain ⟨hao, hsw⟩ := hs b hreach
    have hao' : ArrOk h b := by
      intro d' hd' ht
      obtain ⟨m, hm'⟩ := inv.sim.symm.some hd'
      rw [inv.sim.mem]
      exact hao _ hm' ht
    unfold markLoop
    rw [hd]
    dsimp only
    cases hw : traceWords h d.tag (b + 16) with
    | crash => exact absurd hw (traceWords_safe hd hao')
    | more => simp
    | ok ws =>
      rw [R.bind_ok]
      have hf := traceWords_spec hd hw
      cases hp : tracePtrs h st ws with
      | crash =>
        refine absurd hp (tracePtrs_safe ws h st (L.sim inv.sim) fun w hw' => ?_)
        rcases (hf w).1 hw' with rfl | hfw
        · exact .inl (by rw [inv.sim.lo]; exact hlo)
        · exact (hsw w (hfw.sim inv.sim.symm)).sim inv.sim
      | more => simp
      | ok q =>
        obtain ⟨h1, st1⟩ := q
        rw [R.bind_ok]
        refine markLoop_safe L hs hlo n h1 st1 ?_
        have P := tracePtrs_ok (L.sim inv.sim) hp
        obtain ⟨m1, m2, m3, m4, m5⟩ := P.marks
        refine ⟨inv.sim.trans P.sim, fun a ha => ?_, fun a ha => ?_, fun a ha hst w c hfw hpt => ?_, fun w hw' a ha => m1 a (inv.root w hw' a ha)⟩
        · rcases m3 a ha with ha | ⟨⟨w, hw', hpt⟩, _⟩
          · exact inv.sound a ha
          · rcases (hf w).1 hw' with rfl | hfw
            · exact absurd hpt ptrTo_zero
            · exact .step hreach (hfw.sim inv.sim.symm) (hpt.sim inv.sim.symm)
        · rcases m5 a ha with ha | ha
          · exact m1 a (inv.stack a (by simp [ha]))
          · exact ha
        · rcases m3 a ha with ha | ⟨_, h2⟩
          · by_cases hb : a = b
            · subst hb
              rcases (hf w).2 (hfw.sim inv.sim) with hw' | rfl
              · exact m2 w hw' c (hpt.sim inv.sim)
              · exact absurd hpt ptrTo_zero
            · refine m1 c (inv.black a ha (fun hm => ?_) w c hfw hpt)
              rcases List.mem_cons.1 hm with h | h
              · exact hb h
              · exact hst (m4 a h)
          · exact absurd h2 hst

end Pscm.Gc
