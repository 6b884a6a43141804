import Verif.RefSim
/-! # The interpreter simulates the reference semantics: states -/
namespace Pscm.Ref
open Pscm.Ev hiding Name Form evalForm
variable {σ : Type} {P : Prims σ} {A : Name → Int → Prop} {W W' : World} {st : Store} {s s' : St σ} {X0 : Fixed σ}

/-! ## Progress of the state -/

/-- What an evaluation leaves alone: it only adds frames, and the frames that stand for nothing (procedure frames that are being filled), except `X`, stay as they
are and go on standing for nothing. -/
structure AfterX (X : Nat → Prop) (W W' : World) (s s' : St σ) : Prop where
  le : W.le W'
  len : s.frames.length ≤ s'.frames.length
  fresh : ∀ i, i < s.frames.length → W i = none → W' i = none
  keep : ∀ i, 0 < i → i < s.frames.length → W i = none → ¬ X i → s'.frames[i]? = s.frames[i]?

abbrev After (W W' : World) (s s' : St σ) : Prop := AfterX (fun _ => False) W W' s s'

theorem AfterX.refl {X W} {s : St σ} : AfterX X W W s s := ⟨World.le_refl W, Nat.le_refl _, fun _ _ h => h, fun _ _ _ _ _ => rfl⟩

theorem AfterX.trans {X W1 W2 W3} {s1 s2 s3 : St σ} (h : AfterX X W1 W2 s1 s2) (k : AfterX X W2 W3 s2 s3) : AfterX X W1 W3 s1 s3 :=
  ⟨h.le.trans k.le, Nat.le_trans h.len k.len, fun i hi hw => k.fresh i (Nat.lt_of_lt_of_le hi h.len) (h.fresh i hi hw), fun i h0 hi hw hx => by
    rw [k.keep i h0 (Nat.lt_of_lt_of_le hi h.len) (h.fresh i hi hw) hx, h.keep i h0 hi hw hx]⟩

theorem AfterX.weaken {X Y : Nat → Prop} (h : AfterX X W W' s s') (hxy : ∀ i, X i → Y i) : AfterX Y W W' s s' :=
  ⟨h.le, h.len, h.fresh, fun i h0 hi hw hy => h.keep i h0 hi hw fun hx => hy (hxy i hx)⟩

/-- The state at an error stands for the store of the semantics, unless it is left open. -/
def Left (X0 : Fixed σ) (A : Name → Int → Prop) (o : Option Store) (s : St σ) : Prop := ∀ st, o = some st → ∃ W, StRel X0 A W st s

theorem Left.open {s : St σ} : Left X0 A none s := fun _ h => by cases h

theorem StRel.left (h : StRel X0 A W st s) : Left X0 A (some st) s := fun _ e => by cases e; exact ⟨W, h⟩

/-- The outcome `m` of the interpreter agrees with the answer of the semantics. -/
def Sim {α β : Type} (X0 : Fixed σ) (A : Name → Int → Prop) (R : World → α → β → Prop) (W : World) (s : St σ) (m : Option (Out β × St σ)) : Ans (α × Store) → Prop
  | .unknown => True
  | .error o => ∃ k a s', m = some (.stop (.err X0.target k a), s') ∧ Left X0 A o s'
  | .val (a, st') => ∃ b s' W', m = some (.ok b, s') ∧ After W W' s s' ∧ R W' a b ∧ StRel X0 A W' st' s'

theorem Sim.bind {α β γ δ : Type} {R : World → α → β → Prop} {R' : World → γ → δ → Prop} {x : EM σ β} {f : β → EM σ δ} {r : Ans (α × Store)}
    {g : α × Store → Ans (γ × Store)} (h : Sim X0 A R W s (x s) r)
    (hk : ∀ W' s' a b st', After W W' s s' → R W' a b → StRel X0 A W' st' s' → Sim X0 A R' W' s' (f b s') (g (a, st'))) :
    Sim X0 A R' W s ((x >>= f) s) (r.bind g) := by
  cases r with
  | unknown => trivial
  | error o =>
    obtain ⟨k, a, s', h, ho⟩ := h
    exact ⟨k, a, s', by rw [bind_apply, h], ho⟩
  | val q =>
    obtain ⟨a, st'⟩ := q
    obtain ⟨b, s', W', h1, h2, h3, h4⟩ := h
    have := hk W' s' a b st' h2 h3 h4
    show Sim X0 A R' W s _ (g (a, st'))
    rw [bind_apply, h1]
    cases hg : g (a, st') with
    | unknown => trivial
    | error o => rw [hg] at this; exact this
    | val q =>
      rw [hg] at this
      obtain ⟨c, s2, W2, k1, k2, k3, k4⟩ := this
      exact ⟨c, s2, W2, k1, h2.trans k2, k3, k4⟩

theorem Sim.ret {α β : Type} {R : World → α → β → Prop} {a : α} {b : β} (h : R W a b) (k : StRel X0 A W st s) :
    Sim X0 A R W s (some (.ok b, s)) (.val (a, st)) := ⟨b, s, W, rfl, .refl, h, k⟩

/-- Only the state of the builtins and what was printed change. -/
theorem StRel.printed (h : StRel X0 A W st s) {y : σ} {evs : List Event} (hy : X0.ext (st.out ++ evs) y) :
    StRel X0 A W { st with out := st.out ++ evs } { s with ext := y } :=
  ⟨h.wf, h.rib, h.inj, h.macros, h.modMacros, h.curRoot, h.catches, hy, h.kept, h.top⟩

theorem afterPrint_eq (v : Val) (st : Store) (evs : List Event) : afterPrint v st evs = .val (v, { st with out := st.out ++ evs }) := by
  cases evs <;> simp [afterPrint]

theorem Sim.print {R : World → Val → V → Prop} {a : Val} {b : V} {y : σ} {evs : List Event} (h : R W a b) (k : StRel X0 A W st s)
    (hy : X0.ext (st.out ++ evs) y) : Sim X0 A R W s (some (.ok b, { s with ext := y })) (afterPrint a st evs) := by
  rw [afterPrint_eq]
  exact
  ⟨b, _, W, rfl, ⟨World.le_refl W, Nat.le_refl _, fun _ _ h => h, fun _ _ _ _ _ => rfl⟩, h, k.printed hy⟩

theorem Sim.err {α β : Type} {R : World → α → β → Prop} {m : String} (h : StRel X0 A W st s) : Sim X0 A R W s ((evalError m : EM σ β) s) (.error (some st) : Ans (α × Store)) :=
  ⟨_, _, _, evalError_apply h.throws, h.left⟩

theorem Sim.vague {α β : Type} {R : World → α → β → Prop} {m : Option (Out β × St σ)} {r : Ans (α × Store)} (h : Sim X0 A R W s m r) : Sim X0 A R W s m r.vague := by
  cases r with
  | error o => obtain ⟨k, a, s', h, _⟩ := h; exact ⟨k, a, s', h, .open⟩
  | _ => exact h

/-! ## Changing the state -/

theorem StRel.lt (h : StRel X0 A W st s) {e bs p} (hw : W e = some (bs, p)) : e < s.frames.length := by
  obtain ⟨_, es, hes, _⟩ := h.rib _ _ _ hw
  exact (List.getElem?_eq_some_iff.1 hes).1

theorem StRel.zero (h : StRel X0 A W st s) : W 0 = none := by
  cases hw : W 0 with
  | none => rfl
  | some q => have := (h.rib 0 q.1 q.2 hw).1; omega

theorem EnvAt.lt (he : EnvAt W e ρ) (h : StRel X0 A W st s) : e < s.frames.length := by
  obtain ⟨es, p, hf⟩ := h.frame he
  exact (List.getElem?_eq_some_iff.1 hf).1

/-- Frames that stand for nothing may change. -/
theorem StRel.withFrames (h : StRel X0 A W st s) {fr : List Frame} (wf : FramesWF fr) (hm : ∀ f ∈ fr, ∀ q ∈ f.entries, q.1 ∈ macroNames ∨ isMacro q.2 = false)
    (heq : ∀ i, i = 0 ∨ W i ≠ none → fr[i]? = s.frames[i]?) : StRel X0 A W st { s with frames := fr } where
  wf := wf
  rib := by
    intro e bs p hw
    obtain ⟨h0, es, hes, r⟩ := h.rib e bs p hw
    exact ⟨h0, es, by simp only []; rw [heq e (.inr (by simp [hw])), hes], r⟩
  inj := h.inj
  macros := hm
  modMacros := h.modMacros
  curRoot := h.curRoot
  catches := h.catches
  ext := h.ext
  kept := by
    intro x hx
    have := h.kept x hx
    unfold lookOwn at this ⊢
    simp only [heq 0 (.inl rfl)]
    exact this
  top := by
    obtain ⟨es, md, h0, r⟩ := h.top
    exact ⟨es, md, by simp only []; rw [heq 0 (.inl rfl), h0], r⟩

theorem wf_push {fr : List Frame} (h : FramesWF fr) {es p md} (hp : p < fr.length) : FramesWF (fr ++ [⟨es, some p, md⟩]) := by
  intro i f q hf hq
  by_cases hi : i < fr.length
  · rw [List.getElem?_append_left hi] at hf
    exact h i f q hf hq
  · rw [List.getElem?_append_right (by omega)] at hf
    cases hk : i - fr.length with
    | zero =>
      rw [hk] at hf
      cases hf
      cases hq
      omega
    | succ k => rw [hk] at hf; cases hf

theorem wf_upd {fr : List Frame} (h : FramesWF fr) (e : Nat) (g) : FramesWF (updFrame fr e g) := by
  intro i f q hf hq
  rw [getElem?_updFrame] at hf
  cases hi : fr[i]? with
  | none => rw [hi] at hf; cases hf
  | some f' =>
    rw [hi] at hf
    simp only [Option.map_some, Option.some.injEq] at hf
    subst hf
    refine h i f' q hi ?_
    split at hq <;> exact hq

theorem mem_upd {fr : List Frame} {e : Nat} {g} {f : Frame} (hf : f ∈ updFrame fr e g) :
    f ∈ fr ∨ ∃ f' ∈ fr, f = { f' with entries := g f'.entries } := by
  obtain ⟨i, hi⟩ := List.mem_iff_getElem?.1 hf
  rw [getElem?_updFrame] at hi
  cases hf' : fr[i]? with
  | none => rw [hf'] at hi; cases hi
  | some f' =>
    rw [hf'] at hi
    simp only [Option.map_some, Option.some.injEq] at hi
    have hm := List.mem_iff_getElem?.2 ⟨i, hf'⟩
    by_cases he : i = e
    · rw [if_pos he] at hi; exact .inr ⟨f', hm, hi.symm⟩
    · rw [if_neg he] at hi; exact .inl (hi ▸ hm)

theorem mem_setEntry {x : Name} {v : V} {es : List (Name × V)} {q} (h : q ∈ setEntry x v es) : q ∈ es ∨ q.2 = v := by
  induction es with
  | nil => cases h
  | cons e es ih =>
    obtain ⟨k, w⟩ := e
    simp only [setEntry] at h
    split at h
    · cases h with
      | head => exact .inr rfl
      | tail _ h => exact .inl (.tail _ h)
    · cases h with
      | head => exact .inl (.head _)
      | tail _ h =>
        rcases ih h with h | h
        · exact .inl (.tail _ h)
        · exact .inr h

theorem mem_upsert {x : Name} {v : V} {es : List (Name × V)} {q} (h : q ∈ upsert x v es) : q ∈ es ∨ q.2 = v := by
  unfold upsert at h
  split at h
  · exact mem_setEntry h
  · cases h with
    | head => exact .inr rfl
    | tail _ h => exact .inl h

/-- A new empty frame. -/
theorem StRel.push (h : StRel X0 A W st s) {p : Nat} (hp : p < s.frames.length) :
    StRel X0 A W st { s with frames := s.frames ++ [⟨[], some p, none⟩] } := by
  refine h.withFrames (wf_push h.wf hp) ?_ ?_
  · intro f hf q hq
    rcases List.mem_append.1 hf with hf | hf
    · exact h.macros f hf q hq
    · simp only [List.mem_singleton] at hf
      subst hf
      cases hq
  · intro i hi
    have : i < s.frames.length := by
      rcases hi with rfl | hi
      · omega
      · cases hw : W i with
        | none => exact absurd hw hi
        | some q => exact h.lt (bs := q.1) (p := q.2) hw
    rw [List.getElem?_append_left this]

/-- A new entry in a frame that stands for nothing. -/
theorem StRel.bindOwn (h : StRel X0 A W st s) {pe : Nat} {x : Name} {w : V} (hpe : W pe = none) (h0 : 0 < pe) (hw : isMacro w = false) :
    StRel X0 A W st { s with frames := updFrame s.frames pe (upsert x w) } := by
  refine h.withFrames (wf_upd h.wf _ _) ?_ ?_
  · intro f hf q hq
    rcases mem_upd hf with hf | ⟨f', hf', rfl⟩
    · exact h.macros f hf q hq
    · rcases mem_upsert hq with hq | hq
      · exact h.macros f' hf' q hq
      · rw [hq]; exact .inr hw
  · intro i hi
    have : i ≠ pe := by
      rintro rfl
      rcases hi with rfl | hi
      · omega
      · exact hi hpe
    rw [getElem?_updFrame]
    simp only [if_neg this]
    cases s.frames[i]? <;> rfl

theorem zip_lookup {α : Type} {xs : List Name} {ls : List α} {x : Name} {l : α} (h : (xs.zip ls).lookup x = some l) :
    ∃ i : Nat, xs[i]? = some x ∧ ls[i]? = some l ∧ ∀ {β : Type} (ws : List β), ws.length = xs.length → ∃ w, (xs.zip ws).lookup x = some w ∧ ws[i]? = some w := by
  induction xs generalizing ls with
  | nil => cases h
  | cons y xs ih =>
    cases ls with
    | nil => cases h
    | cons l' ls =>
      by_cases hy : x = y
      · subst hy
        simp [List.lookup] at h
        subst h
        refine ⟨0, rfl, rfl, fun ws hw => ?_⟩
        cases ws with
        | nil => cases hw
        | cons w ws => exact ⟨w, by simp [List.lookup], rfl⟩
      · have hb : (x == y) = false := by simp [hy]
        simp only [List.zip_cons_cons, List.lookup, hb] at h
        obtain ⟨i, h1, h2, h3⟩ := ih h
        refine ⟨i + 1, h1, h2, fun ws hw => ?_⟩
        cases ws with
        | nil => cases hw
        | cons w ws =>
          obtain ⟨w', k1, k2⟩ := h3 ws (by simpa using hw)
          exact ⟨w', by simp only [List.zip_cons_cons, List.lookup, hb, k1], k2⟩

theorem zip_lookup_none {α β : Type} {xs : List Name} {ls : List α} {ws : List β} {x : Name} (hl : ls.length = xs.length) (hw : ws.length = xs.length)
    (h : (xs.zip ls).lookup x = none) : (xs.zip ws).lookup x = none := by
  cases hx : (xs.zip ws).lookup x with
  | none => rfl
  | some w =>
    obtain ⟨_, _, _, hk⟩ := zip_lookup hx
    obtain ⟨l, hl', _⟩ := hk ls hl
    rw [h] at hl'
    cases hl'

theorem lookup_reverse {β : Type} {es : List (Name × β)} (h : (es.map Prod.fst).Nodup) (x : Name) : es.reverse.lookup x = es.lookup x := by
  induction es with
  | nil => rfl
  | cons e es ih =>
    obtain ⟨k, v⟩ := e
    simp only [List.map_cons, List.nodup_cons] at h
    rw [List.reverse_cons, lookup_append, ih h.2]
    by_cases hx : x = k
    · subst hx
      rw [lookup_none_iff.2 h.1]
      simp [List.lookup]
    · have : (x == k) = false := by simp [hx]
      simp only [List.lookup, this, Option.or_none]

theorem zip_lookup_at {α : Type} {xs : List Name} {ws : List α} (hnd : xs.Nodup) {i : Nat} {x : Name} {w : α} (hx : xs[i]? = some x) (hw : ws[i]? = some w) :
    (xs.zip ws).lookup x = some w := by
  induction xs generalizing ws i with
  | nil => simp at hx
  | cons y xs ih =>
    cases ws with
    | nil => simp at hw
    | cons u ws =>
      rw [List.nodup_cons] at hnd
      cases i with
      | zero =>
        simp at hx hw
        subst hx hw
        simp [List.lookup]
      | succ i =>
        simp at hx hw
        have : (x == y) = false := by
          rw [beq_eq_false_iff_ne]
          rintro rfl
          exact hnd.1 (List.mem_of_getElem? hx)
        simp only [List.zip_cons_cons, List.lookup, this]
        exact ih hnd.2 hx hw

/-- The frame `pe` now stands for the variables `xs`, and for the variables `ys` that are not defined yet. -/
theorem StRel.register (h : StRel X0 A W st s) {pe p : Nat} {xs ys : List Name} {vs : List Val} {ws : List V} (hpe : W pe = none) (h0 : 0 < pe)
    (hf : s.frames[pe]? = some ⟨(xs.zip ws).reverse, some p, none⟩) (hnd : (xs ++ ys).Nodup) (hv : vs.length = xs.length) (hw : ws.length = xs.length)
    {ρ : Env} (hp : EnvAt W p ρ)
    (hr : ∀ W', W.le W' → EnvAt W' pe (alloc (xs ++ ys) (vs ++ ys.map fun _ => .unassigned) ρ st).1 →
      ∀ (i : Nat) (v : Val) (w : V), vs[i]? = some v → ws[i]? = some w → v = .undefined ∨ VRel A W' v w) :
    ∃ W', W.le W' ∧ (∀ i, i ≠ pe → W i = none → W' i = none) ∧ EnvAt W' pe (alloc (xs ++ ys) (vs ++ ys.map fun _ => .unassigned) ρ st).1 ∧
      StRel X0 A W' (alloc (xs ++ ys) (vs ++ ys.map fun _ => .unassigned) ρ st).2 s ∧
      W' pe = some ((xs ++ ys).zip (List.range' st.cells.length (xs ++ ys).length), p) := by
  let bs := (xs ++ ys).zip (List.range' st.cells.length (xs ++ ys).length)
  have hxs : xs.Nodup := (List.nodup_append.1 hnd).1
  let W' : World := fun i => if i = pe then some (bs, p) else W i
  have hle : W.le W' := by
    intro e q hq
    have : e ≠ pe := by rintro rfl; rw [hpe] at hq; cases hq
    simp only [W', if_neg this, hq]
  have hkeys : ((xs.zip ws).map Prod.fst).Nodup := by rw [List.map_fst_zip (by omega)]; exact hxs
  have hbound : ∀ e bs' p' x l, W e = some (bs', p') → bs'.lookup x = some l → l < st.cells.length := by
    intro e bs' p' x l hW hl
    obtain ⟨_, es, _, _, hs⟩ := h.rib e bs' p' hW
    obtain ⟨v, hc, _⟩ := hs x l hl
    exact (List.getElem?_eq_some_iff.1 hc).1
  have hnew : ∀ x l, bs.lookup x = some l → ∃ i : Nat, (xs ++ ys)[i]? = some x ∧ l = st.cells.length + i := by
    intro x l hl
    obtain ⟨i, h1, h2, _⟩ := zip_lookup hl
    refine ⟨i, h1, ?_⟩
    rw [List.getElem?_range' (by exact (List.getElem?_eq_some_iff.1 h1).1)] at h2
    simp only [Option.some.injEq] at h2
    omega
  have hpe' : W' pe = some (bs, p) := by simp only [W', if_true]
  have hat : EnvAt W' pe (alloc (xs ++ ys) (vs ++ ys.map fun _ => .unassigned) ρ st).1 := .rib (p := p) hpe' (hp.mono hle)
  refine ⟨W', hle, fun i hi hw => by simp only [W', if_neg hi, hw], hat, ?_, hpe'⟩
  refine ⟨h.wf, ?_, ?_, h.macros, h.modMacros, h.curRoot, h.catches, h.ext, h.kept, ?_⟩
  · intro e bs' p' hW
    by_cases he : e = pe
    · subst he
      simp only [W', if_true, Option.some.injEq, Prod.mk.injEq] at hW
      obtain ⟨rfl, rfl⟩ := hW
      refine ⟨h0, _, hf, ?_, ?_⟩
      · intro x _ hx
        rw [lookup_reverse hkeys]
        rw [lookup_none_iff, List.map_fst_zip (by simp)] at hx
        rw [lookup_none_iff, List.map_fst_zip (by omega)]
        exact fun hm => hx (List.mem_append.2 (.inl hm))
      · intro x l hx
        rw [lookup_reverse hkeys]
        obtain ⟨i, h1, this⟩ := hnew x l hx
        have hcell : (st.cells ++ (vs ++ ys.map fun _ => Val.unassigned))[l]? = (vs ++ ys.map fun _ => Val.unassigned)[i]? := by
          rw [this, List.getElem?_append_right (by omega)]
          simp only [Nat.add_sub_cancel_left]
        by_cases hi : i < xs.length
        · have hvi : vs[i]? = some vs[i] := List.getElem?_eq_getElem (by omega)
          have hwi : ws[i]? = some ws[i] := List.getElem?_eq_getElem (by omega)
          rw [List.getElem?_append_left hi] at h1
          refine ⟨vs[i], ?_, .inr ⟨ws[i], zip_lookup_at hxs h1 hwi, hr W' hle hat i _ _ hvi hwi⟩⟩
          show (st.cells ++ (vs ++ ys.map fun _ => Val.unassigned))[l]? = _
          rw [hcell, List.getElem?_append_left (by omega), hvi]
        · refine ⟨.unassigned, ?_, .inl rfl⟩
          show (st.cells ++ (vs ++ ys.map fun _ => Val.unassigned))[l]? = _
          have hlt : i < (xs ++ ys).length := (List.getElem?_eq_some_iff.1 h1).1
          rw [List.length_append] at hlt
          rw [hcell, List.getElem?_append_right (by omega), List.getElem?_map, List.getElem?_eq_getElem (by omega)]
          rfl
    · simp only [W', if_neg he] at hW
      obtain ⟨k0, es, hes, hn, hs⟩ := h.rib e bs' p' hW
      refine ⟨k0, es, hes, hn, fun x l hx => ?_⟩
      obtain ⟨v, hc, hr⟩ := hs x l hx
      refine ⟨v, ?_, hr.imp id fun ⟨w, hl, hr⟩ => ⟨w, hl, hr.imp id fun h => h.mono hle⟩⟩
      show (st.cells ++ (vs ++ ys.map fun _ => Val.unassigned))[l]? = _
      rw [List.getElem?_append_left (List.getElem?_eq_some_iff.1 hc).1, hc]
  · intro e b1 p1 x e' b2 p2 x' l hW hl hW' hl'
    by_cases he : e = pe
    · by_cases he' : e' = pe
      · subst he he'
        simp only [W', if_true, Option.some.injEq, Prod.mk.injEq] at hW hW'
        obtain ⟨rfl, rfl⟩ := hW
        obtain ⟨rfl, _⟩ := hW'
        obtain ⟨i, hi, e1⟩ := hnew x l hl
        obtain ⟨j, hj, e2⟩ := hnew x' l hl'
        have : i = j := by omega
        subst this
        rw [hi] at hj
        cases hj
        exact ⟨rfl, rfl⟩
      · subst he
        simp only [W', if_true, Option.some.injEq, Prod.mk.injEq] at hW
        obtain ⟨rfl, rfl⟩ := hW
        simp only [W', if_neg he'] at hW'
        obtain ⟨i, _, e1⟩ := hnew x l hl
        have := hbound e' b2 p2 x' l hW' hl'
        omega
    · simp only [W', if_neg he] at hW
      have hb := hbound e b1 p1 x l hW hl
      by_cases he' : e' = pe
      · subst he'
        simp only [W', if_true, Option.some.injEq, Prod.mk.injEq] at hW'
        obtain ⟨rfl, rfl⟩ := hW'
        obtain ⟨i, _, e1⟩ := hnew x' l hl'
        omega
      · simp only [W', if_neg he'] at hW'
        exact h.inj e b1 p1 x e' b2 p2 x' l hW hl hW' hl'
  · obtain ⟨es, md, k0, km, ku, kn, ks, kb⟩ := h.top
    refine ⟨es, md, k0, km, ku, kn, fun x v hx => ?_, kb⟩
    obtain ⟨w, hw, hr⟩ := ks x v hx
    exact ⟨w, hw, hr.mono hle⟩

/-! ## Assignment -/

theorem updFrame_length' (fr : List Frame) (e g) : (updFrame fr e g).length = fr.length := by
  unfold updFrame
  cases fr[e]? <;> simp

theorem getElem?_upd_ne (fr : List Frame) {e i : Nat} (g) (h : i ≠ e) : (updFrame fr e g)[i]? = fr[i]? := by
  rw [getElem?_updFrame]
  simp only [if_neg h]
  cases fr[i]? <;> rfl

theorem getElem?_upd_self (fr : List Frame) {e : Nat} (g) {f : Frame} (h : fr[e]? = some f) :
    (updFrame fr e g)[e]? = some { f with entries := g f.entries } := by
  rw [getElem?_updFrame, h]
  simp

/-- Changing another frame than the global one keeps the macros. -/
theorem kept_upd (h : StRel X0 A W st s) {e : Nat} (he : e ≠ 0) (g) : ∀ x ∈ macroNames, lookOwn (updFrame s.frames e g) 0 x = initMacros.lookup x := by
  intro x hx
  have := h.kept x hx
  unfold lookOwn at this ⊢
  rw [getElem?_upd_ne _ _ (Ne.symm he)]
  exact this

theorem macros_setEntry (h : StRel X0 A W st s) {e : Nat} {x : Name} {w : V} (hw : isMacro w = false) :
    ∀ f ∈ updFrame s.frames e (setEntry x w), ∀ q ∈ f.entries, q.1 ∈ macroNames ∨ isMacro q.2 = false := by
  intro f hf q hq
  rcases mem_upd hf with hf | ⟨f', hf', rfl⟩
  · exact h.macros f hf q hq
  · rcases mem_setEntry hq with hq | hq
    · exact h.macros f' hf' q hq
    · rw [hq]; exact .inr hw

/-- A new value for a local variable. -/
theorem StRel.setLocal (h : StRel X0 A W st s) {i bs p x l} {v : Val} {w : V} (hw : W i = some (bs, p)) (hx : bs.lookup x = some l)
    (hnu : st.cells[l]? ≠ some .unassigned) (hr : VRel A W v w) :
    StRel X0 A W { st with cells := st.cells.set l v } { s with frames := updFrame s.frames i (setEntry x w) } := by
  have hi0 := (h.rib i bs p hw).1
  refine ⟨wf_upd h.wf _ _, ?_, h.inj, macros_setEntry h hr.noMacro, h.modMacros, h.curRoot, h.catches, h.ext, kept_upd h (by omega) _, ?_⟩
  · intro e bs' p' hW
    obtain ⟨k0, es, hes, hn, hs⟩ := h.rib e bs' p' hW
    by_cases he : e = i
    · subst he
      rw [hw] at hW
      cases hW
      refine ⟨k0, _, getElem?_upd_self _ _ hes, ?_, ?_⟩
      · intro y hv hy
        simp only [lookup_setEntry]
        split
        · rename_i e; subst e; rw [hn y hv hy]; rfl
        · exact hn y hv hy
      · intro y l' hy
        obtain ⟨v', hc, hr'⟩ := hs y l' hy
        by_cases hyx : y = x
        · subst hyx
          rw [hx] at hy
          cases hy
          rcases hr' with rfl | ⟨w', hl, _⟩
          · exact absurd hc hnu
          refine ⟨v, ?_, .inr ⟨w, ?_, .inr hr⟩⟩
          · simp only [List.getElem?_set_self (List.getElem?_eq_some_iff.1 hc).1]
          · simp only [lookup_setEntry, if_true, hl, Option.map_some]
        · have hll : l ≠ l' := by
            rintro rfl
            exact hyx (h.inj e bs p y e bs p x l hw hy hw hx).2
          refine ⟨v', ?_, hr'.imp id fun ⟨w', hl, hr⟩ => ⟨w', ?_, hr⟩⟩
          · simp only [List.getElem?_set_ne hll, hc]
          · simp only [lookup_setEntry, if_neg hyx, hl]
    · refine ⟨k0, es, by simp only []; rw [getElem?_upd_ne _ _ he, hes], hn, fun y l' hy => ?_⟩
      obtain ⟨v', hc, hr'⟩ := hs y l' hy
      have hll : l ≠ l' := by
        rintro rfl
        exact he (h.inj e bs' p' y i bs p x l hW hy hw hx).1
      exact ⟨v', by simp only [List.getElem?_set_ne hll, hc], hr'⟩
  · obtain ⟨es, md, k0, r⟩ := h.top
    exact ⟨es, md, by simp only []; rw [getElem?_upd_ne _ _ (by omega), k0], r⟩

/-- A new value for a global variable that is in the global environment. -/
theorem StRel.setTop (h : StRel X0 A W st s) {es md x} {v : Val} {w w0 : V} (h0 : s.frames[0]? = some ⟨es, none, none⟩)
    (hm : s.mods[s.root]? = some md) (hx : es.lookup x = some w0) (hmx : x ∉ macroNames) (hr : VRel A W v w) :
    StRel X0 A W { st with globals := setGlobal x v st.globals } { s with frames := updFrame s.frames 0 (setEntry x w) } := by
  refine ⟨wf_upd h.wf _ _, ?_, h.inj, macros_setEntry h hr.noMacro, h.modMacros, h.curRoot, h.catches, h.ext, ?_, ?_⟩
  · intro e bs' p' hW
    obtain ⟨k0, es, hes, r⟩ := h.rib e bs' p' hW
    exact ⟨k0, es, by simp only []; rw [getElem?_upd_ne _ _ (by omega), hes], r⟩
  · intro y hy
    have hne : y ≠ x := fun e => hmx (e ▸ hy)
    have := h.kept y hy
    unfold lookOwn at this ⊢
    simp only [getElem?_upd_self _ _ h0, ← lookup_eq_findEntry, lookup_setEntry, if_neg hne]
    simpa only [h0, ← lookup_eq_findEntry] using this
  · obtain ⟨es', md', k0, km, ku, kn, ks, kb⟩ := h.top
    rw [h0] at k0
    cases k0
    rw [hm] at km
    cases km
    have key : ∀ y, topVal (setEntry x w es) md.obarray y = if y = x then some w else topVal es md.obarray y := by
      intro y
      unfold topVal
      rw [lookup_setEntry]
      by_cases hy : y = x
      · simp [hy, hx]
      · simp [hy]
    refine ⟨_, md, getElem?_upd_self _ _ h0, hm, ku, fun y hym hy => ?_, fun y u hy => ?_, fun y u hy => ?_⟩
    · simp only [lookup_setGlobal] at hy
      rw [key]
      split at hy
      · cases hy
      · rename_i hyx; rw [if_neg hyx]; exact kn y hym hy
    · simp only [lookup_setGlobal] at hy
      rw [key]
      split at hy
      · rename_i hyx; cases hy; rw [if_pos hyx]; exact ⟨w, rfl, hr⟩
      · rename_i hyx; rw [if_neg hyx]; exact ks y u hy
    · have hy : (setEntry x w es).lookup y = some u := hy
      rw [lookup_setEntry] at hy
      by_cases hyx : y = x
      · subst hyx; exact kb y w0 hx
      · rw [if_neg hyx] at hy; exact kb y u hy

/-- A new value for a global variable, in the root module. -/
theorem StRel.setRoot (h : StRel X0 A W st s) {es md x} {v : Val} {w : V} (h0 : s.frames[0]? = some ⟨es, none, none⟩)
    (hm : s.mods[s.root]? = some md) (hx : es.lookup x = none) (hr : VRel A W v w) :
    StRel X0 A W { st with globals := setGlobal x v st.globals } { s with mods := obSet s.mods s.root x w } := by
  have hlt : s.root < s.mods.length := (List.getElem?_eq_some_iff.1 hm).1
  have hob : obSet s.mods s.root x w = s.mods.set s.root { md with obarray := upsert x w md.obarray } := by
    unfold obSet; rw [hm]
  refine ⟨h.wf, h.rib, h.inj, h.macros, ?_, h.curRoot, h.catches, h.ext, h.kept, ?_⟩
  · intro m hmm q hq
    simp only [hob] at hmm
    rcases List.mem_or_eq_of_mem_set hmm with hmm | rfl
    · exact h.modMacros m hmm q hq
    · rcases mem_upsert hq with hq | hq
      · exact h.modMacros md (List.mem_iff_getElem?.2 ⟨_, hm⟩) q hq
      · rw [hq]; exact hr.noMacro
  · obtain ⟨es', md', k0, km, ku, kn, ks, kb⟩ := h.top
    rw [h0] at k0
    cases k0
    rw [hm] at km
    cases km
    have key : ∀ y, topVal es (upsert x w md.obarray) y = if y = x then some w else topVal es md.obarray y := by
      intro y
      unfold topVal
      rw [lookup_upsert]
      by_cases hy : y = x
      · simp [hy, hx]
      · simp [hy]
    refine ⟨es, { md with obarray := upsert x w md.obarray }, h0, by simp only [hob]; rw [List.getElem?_set_self hlt], ku, fun y hym hy => ?_, fun y u hy => ?_, kb⟩
    · simp only [lookup_setGlobal] at hy
      rw [key]
      split at hy
      · cases hy
      · rename_i hyx; rw [if_neg hyx]; exact kn y hym hy
    · simp only [lookup_setGlobal] at hy
      rw [key]
      split at hy
      · rename_i hyx; cases hy; rw [if_pos hyx]; exact ⟨w, rfl, hr⟩
      · rename_i hyx; rw [if_neg hyx]; exact ks y u hy

/-- `set!`. -/
theorem StRel.assign (h : StRel X0 A W st s) {e ρ x} {v : Val} {w : V} {st' : Store} (hvar : IsVar x) (he : EnvAt W e ρ) (hr : VRel A W v w)
    (ha : assign ρ st x v = .val st') : StRel X0 A W st' (assignSt s e x w) ∧ After W W s (assignSt s e x w) := by
  unfold Ref.assign at ha
  unfold assignSt
  cases hl : ρ.lookup x with
  | some l =>
    rw [hl] at ha
    simp only [] at ha
    split at ha
    · cases ha
    · cases ha
    · rename_i u hnu hcell
      rcases h.local hvar he hl with hu | ⟨i, bs, p, w0, h1, h2, h3⟩
      · rw [hcell] at hu
        exact absurd (Option.some.inj hu) hnu
      obtain ⟨f, hf, _⟩ := h3.at
      have hff : findFrame s.frames x (e + 1) e = some i := findFrame_complete h.wf h3 (e + 1) (Nat.lt_succ_self e)
      rw [hff]
      cases ha
      refine ⟨h.setLocal h1 h2 (by rw [hcell]; exact fun hh => hnu (Option.some.inj hh)) hr, World.le_refl W, ?_, fun _ _ h => h, fun j _ hj hw _ => ?_⟩
      · simp [updFrame_length']
      · have : j ≠ i := by rintro rfl; rw [h1] at hw; cases hw
        simp only [getElem?_upd_ne _ _ this]
  | none =>
    rw [hl] at ha
    simp only [] at ha
    obtain ⟨es, md, h0, hm, hu, hn, hs, _⟩ := h.top
    cases hg : st.globals.lookup x with
    | none => rw [hg] at ha; cases ha
    | some u =>
      rw [hg] at ha
      cases ha
      obtain ⟨w0, hw0, _⟩ := hs x u hg
      cases hes : es.lookup x with
      | some w1 =>
        have hff : findFrame s.frames x (e + 1) e = some 0 :=
          findFrame_complete h.wf ((h.outer hvar he hl h0).2 ⟨rfl, hes⟩) (e + 1) (Nat.lt_succ_self e)
        rw [hff]
        refine ⟨h.setTop h0 hm hes hvar.macros hr, World.le_refl W, ?_, fun _ _ h => h, fun j hj0 _ _ _ => ?_⟩
        · simp [updFrame_length']
        · simp only [getElem?_upd_ne _ _ (show j ≠ 0 by omega)]
      | none =>
        have hff : findFrame s.frames x (e + 1) e = none := by
          rw [findFrame_none h.wf]
          intro i w hb
          have := ((h.outer hvar he hl h0).1 hb).2
          rw [hes] at this
          cases this
        rw [hff]
        have hob : md.obarray.lookup x = some w0 := by
          unfold topVal at hw0
          rw [hes] at hw0
          exact hw0
        have hfm : findModule s.mods s.root s.cur x = some s.root := by
          unfold findModule obLookup
          rw [h.curRoot, hm]
          simp only [← lookup_eq_findEntry, hob, Option.isSome_some, if_true]
        simp only [hfm]
        exact ⟨h.setRoot h0 hm hes hr, World.le_refl W, Nat.le_refl _, fun _ _ h => h, fun _ _ _ _ _ => rfl⟩

/-- A definition in a body. -/
theorem StRel.init (h : StRel X0 A W st s) {e bs p ρ x} {v : Val} {w : V} {st' : Store} (hW : W e = some (bs, p)) {l : Nat} (hx : bs.lookup x = some l)
    (hr : VRel A W v w) (ha : Ref.init (bs ++ ρ) st x v = .val st') : StRel X0 A W st' (defineSt s e x w) ∧ After W W s (defineSt s e x w) := by
  obtain ⟨hi0, es0, hes0, _⟩ := h.rib e bs p hW
  unfold Ref.init at ha
  rw [lookup_append, hx] at ha
  cases ha
  unfold defineSt
  simp only [hes0, insertOwn]
  refine ⟨⟨wf_upd h.wf _ _, ?_, h.inj, ?_, h.modMacros, h.curRoot, h.catches, h.ext, kept_upd h (by omega) _, ?_⟩, World.le_refl W, ?_, fun _ _ h => h, fun j _ hj hw _ => ?_⟩
  · intro e' bs' p' hW'
    obtain ⟨k0, es, hes, hn, hs⟩ := h.rib e' bs' p' hW'
    by_cases he : e' = e
    · subst he
      rw [hW] at hW'
      cases hW'
      refine ⟨k0, _, getElem?_upd_self _ _ hes, ?_, ?_⟩
      · intro y hv hy
        simp only [lookup_upsert]
        split
        · rename_i e; subst e; rw [hx] at hy; cases hy
        · exact hn y hv hy
      · intro y l' hy
        obtain ⟨v', hc, hr'⟩ := hs y l' hy
        by_cases hyx : y = x
        · subst hyx
          rw [hx] at hy
          cases hy
          refine ⟨v, ?_, .inr ⟨w, ?_, .inr hr⟩⟩
          · simp only [List.getElem?_set_self (List.getElem?_eq_some_iff.1 hc).1]
          · simp only [lookup_upsert, if_true]
        · have hll : l ≠ l' := by
            rintro rfl
            exact hyx (h.inj e' bs p y e' bs p x l hW hy hW hx).2
          refine ⟨v', ?_, hr'.imp id fun ⟨w', hl, hr⟩ => ⟨w', ?_, hr⟩⟩
          · simp only [List.getElem?_set_ne hll, hc]
          · simp only [lookup_upsert, if_neg hyx, hl]
    · refine ⟨k0, es, by simp only []; rw [getElem?_upd_ne _ _ he, hes], hn, fun y l' hy => ?_⟩
      obtain ⟨v', hc, hr'⟩ := hs y l' hy
      have hll : l ≠ l' := by
        rintro rfl
        exact he (h.inj e' bs' p' y e bs p x l hW' hy hW hx).1
      exact ⟨v', by simp only [List.getElem?_set_ne hll, hc], hr'⟩
  · intro f hf q hq
    rcases mem_upd hf with hf | ⟨f', hf', rfl⟩
    · exact h.macros f hf q hq
    · rcases mem_upsert hq with hq | hq
      · exact h.macros f' hf' q hq
      · rw [hq]; exact .inr hr.noMacro
  · obtain ⟨es, md, k0, r⟩ := h.top
    exact ⟨es, md, by simp only []; rw [getElem?_upd_ne _ _ (by omega), k0], r⟩
  · simp [updFrame_length']
  · have : j ≠ e := by rintro rfl; rw [hW] at hw; cases hw
    simp only [getElem?_upd_ne _ _ this]

/-- A frame without variables of the program stands for its parent. -/
theorem StRel.hide (h : StRel X0 A W st s) {pe p : Nat} {es : List (Name × V)} {ρ : Env} (hpe : W pe = none) (h0 : 0 < pe)
    (hf : s.frames[pe]? = some ⟨es, some p, none⟩) (hes : ∀ x, IsVar x → es.lookup x = none) (hp : EnvAt W p ρ) :
    ∃ W', W.le W' ∧ (∀ i, i ≠ pe → W i = none → W' i = none) ∧ EnvAt W' pe ρ ∧ StRel X0 A W' st s := by
  let W' : World := fun i => if i = pe then some ([], p) else W i
  have hle : W.le W' := by
    intro e q hq
    have : e ≠ pe := by rintro rfl; rw [hpe] at hq; cases hq
    simp only [W', if_neg this, hq]
  have hold : ∀ e bs p x l, W' e = some (bs, p) → bs.lookup x = some l → W e = some (bs, p) := by
    intro e bs p x l hW hl
    by_cases he : e = pe
    · subst he
      simp only [W', if_true, Option.some.injEq, Prod.mk.injEq] at hW
      rw [← hW.1] at hl
      cases hl
    · simpa only [W', if_neg he] using hW
  refine ⟨W', hle, fun i hi hw => by simp only [W', if_neg hi, hw], ?_, ?_⟩
  · have := EnvAt.rib (W := W') (e := pe) (bs := []) (p := p) (ρ := ρ) (by simp only [W', if_true]) (hp.mono hle)
    exact this
  · refine ⟨h.wf, ?_, ?_, h.macros, h.modMacros, h.curRoot, h.catches, h.ext, h.kept, ?_⟩
    · intro e bs' p' hW
      by_cases he : e = pe
      · subst he
        simp only [W', if_true, Option.some.injEq, Prod.mk.injEq] at hW
        obtain ⟨rfl, rfl⟩ := hW
        exact ⟨h0, es, hf, fun x hx _ => hes x hx, fun x l hl => by cases hl⟩
      · simp only [W', if_neg he] at hW
        obtain ⟨k0, es, hes, hn, hs⟩ := h.rib e bs' p' hW
        refine ⟨k0, es, hes, hn, fun x l hx => ?_⟩
        obtain ⟨v, hc, hr⟩ := hs x l hx
        exact ⟨v, hc, hr.imp id fun ⟨w, hl, hr⟩ => ⟨w, hl, hr.imp id fun h => h.mono hle⟩⟩
    · intro e b1 p1 x e' b2 p2 x' l hW hl hW' hl'
      exact h.inj e b1 p1 x e' b2 p2 x' l (hold _ _ _ _ _ hW hl) hl (hold _ _ _ _ _ hW' hl') hl'
    · obtain ⟨es, md, k0, km, ku, kn, ks, kb⟩ := h.top
      refine ⟨es, md, k0, km, ku, kn, fun x v hx => ?_, kb⟩
      obtain ⟨w, hw, hr⟩ := ks x v hx
      exact ⟨w, hw, hr.mono hle⟩

end Pscm.Ref
