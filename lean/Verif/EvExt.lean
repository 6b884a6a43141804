import Verif.EvInv
/-!
# What every evaluation preserves

Frames are never removed, keep their parent and module and never lose a binding; promises keep their expression
and, once forced, their value; a frame's parent is older than the frame.
-/
namespace Pscm.Ev
variable {σ α β : Type}
open EM (stop getSt modSt)

/-- A module keeps its name, and gains but never loses bindings, imports, exports; an interface, once made, stays. -/
structure ModKept (m m' : Modl) : Prop where
  name : m'.name = m.name
  binds : ∀ x, hasEntry x m.obarray = true → hasEntry x m'.obarray = true
  uses : m.uses <:+ m'.uses
  exports : m.exports <:+ m'.exports
  pub : ∀ i, m.pub = some i → m'.pub = some i

/-- Modules are never removed. -/
def ModsKept (ms ms' : List Modl) : Prop := ∀ (i : Nat) (m : Modl), ms[i]? = some m → ∃ m' : Modl, ms'[i]? = some m' ∧ ModKept m m'

theorem ModKept.refl (m : Modl) : ModKept m m := ⟨rfl, fun _ h => h, List.suffix_refl _, List.suffix_refl _, fun _ h => h⟩
theorem ModKept.trans {a b c : Modl} (h : ModKept a b) (k : ModKept b c) : ModKept a c :=
  ⟨k.name.trans h.name, fun x hx => k.binds x (h.binds x hx), h.uses.trans k.uses, h.exports.trans k.exports, fun i hi => k.pub i (h.pub i hi)⟩
theorem ModsKept.refl (ms : List Modl) : ModsKept ms ms := fun _ m h => ⟨m, h, .refl m⟩
theorem ModsKept.trans {a b c : List Modl} (h : ModsKept a b) (k : ModsKept b c) : ModsKept a c := by
  intro i m hm
  obtain ⟨m1, h1, k1⟩ := h i m hm
  obtain ⟨m2, h2, k2⟩ := k i m1 h1
  exact ⟨m2, h2, k1.trans k2⟩

theorem modsKept_set {ms : List Modl} {j : Nat} {m m' : Modl} (hj : ms[j]? = some m) (hk : ModKept m m') : ModsKept ms (ms.set j m') := by
  intro i n hn
  by_cases hi : i = j
  · subst hi
    rw [hj] at hn; cases hn
    exact ⟨m', List.getElem?_set_self (List.getElem?_eq_some_iff.1 hj).1, hk⟩
  · exact ⟨n, by rw [List.getElem?_set_ne (Ne.symm hi)]; exact hn, .refl n⟩

theorem modsKept_append (ms l : List Modl) : ModsKept ms (ms ++ l) := fun i m hm =>
  ⟨m, by rw [List.getElem?_append_left (List.getElem?_eq_some_iff.1 hm).1]; exact hm, .refl m⟩

theorem modsKept_obSet (ms : List Modl) (m : Nat) (x : Name) (v : V) : ModsKept ms (obSet ms m x v) := by
  unfold obSet
  split
  · rename_i md hmd
    exact modsKept_set hmd ⟨rfl, fun _ h => hasEntry_upsert h, List.suffix_refl _, List.suffix_refl _, fun _ h => h⟩
  · exact .refl _

theorem modsKept_use (ms : List Modl) (m u : Nat) : ModsKept ms (useModule ms m u) := by
  unfold useModule
  split
  · rename_i md hmd
    exact modsKept_set hmd ⟨rfl, fun _ h => h, List.suffix_cons .., List.suffix_refl _, fun _ h => h⟩
  · exact .refl _

theorem modsKept_iface (ms : List Modl) (m : Nat) : ModsKept ms (ensureIface ms m).1 := by
  unfold ensureIface
  split
  · exact .refl _
  · rename_i md hmd
    split
    · exact .refl _
    · rename_i hp
      exact (modsKept_set (m' := { md with pub := some ms.length }) hmd
        ⟨rfl, fun _ h => h, List.suffix_refl _, List.suffix_refl _, fun _ h => by rw [hp] at h; cases h⟩).trans (modsKept_append _ _)

theorem modsKept_export (ms : List Modl) (r m : Nat) (x : Name) : ModsKept ms (exportSym ms r m x) := by
  unfold exportSym
  split
  · exact .refl _
  · rename_i md hmd
    have h1 : ModsKept ms (ms.set m { md with exports := x :: md.exports }) :=
      modsKept_set hmd ⟨rfl, fun _ h => h, List.suffix_refl _, List.suffix_cons .., fun _ h => h⟩
    have h2 := h1.trans (modsKept_iface _ m)
    dsimp only
    split
    · rename_i ms2 i he
      rw [he] at h2
      split
      · exact h2.trans (modsKept_obSet _ _ _ _)
      · exact h2
    · rename_i ms2 he
      rw [he] at h2
      exact h2

/-- A single relation that does not look at the control state. -/
structure SimpleRel (σ : Type) where
  R : St σ → St σ → Prop
  refl : ∀ s, R s s
  trans : ∀ a b c, R a b → R b c → R a c
  push : ∀ s p f m, s.frames[p]? = some f → R s { s with frames := s.frames ++ [⟨[], some p, m⟩] }
  upd : ∀ s e g, (∀ es x, hasEntry x es = true → hasEntry x (g es) = true) → R s { s with frames := updFrame s.frames e g }
  mods : ∀ s ms c, ModsKept s.mods ms → R s { s with mods := ms, cur := c }
  delay : ∀ s e x, R s { s with proms := s.proms ++ [⟨e, x, Option.none⟩] }
  forced : ∀ s i p v, s.proms[i]? = some p → p.val = Option.none →
    R s { s with proms := s.proms.set i { p with val := some v } }
  setExt : ∀ s x, R s { s with ext := x }
  ctl : ∀ s cs l ws cts n c, R s { s with catches := cs, live := l, winds := ws, conts := cts, next := n, cur := c }

theorem simple_handle (I : SimpleRel σ) {x : EM σ α} {f : Out α → EM σ β} (hx : Pres I.R (fun s _ s' => I.R s s') x)
    (hf : ∀ o, Pres I.R (fun s _ s' => I.R s s') (f o)) : Pres I.R (fun s _ s' => I.R s s') (EM.handle x f) := by
  constructor <;> intro s b s' h <;> simp only [EM.handle] at h
  · cases hxs : x s with
    | none => simp [hxs] at h
    | some q =>
      obtain ⟨o, s1⟩ := q
      rw [hxs] at h
      refine I.trans _ s1 _ ?_ ((hf o).ok _ _ _ h)
      cases o with
      | ok a => exact hx.ok _ _ _ hxs
      | stop e => exact hx.st _ _ _ hxs
  · cases hxs : x s with
    | none => simp [hxs] at h
    | some q =>
      obtain ⟨o, s1⟩ := q
      rw [hxs] at h
      refine I.trans _ s1 _ ?_ ((hf o).st _ _ _ h)
      cases o with
      | ok a => exact hx.ok _ _ _ hxs
      | stop e => exact hx.st _ _ _ hxs

theorem simple_bind (I : SimpleRel σ) {x : EM σ α} {f : α → EM σ β} (hx : Pres I.R (fun s _ s' => I.R s s') x)
    (hf : ∀ o, Pres I.R (fun s _ s' => I.R s s') (f o)) : Pres I.R (fun s _ s' => I.R s s') (x >>= f) := by
  constructor <;> intro s b s' h <;> simp only [Bind.bind, EM.bind] at h
  · cases hxs : x s with
    | none => simp [hxs] at h
    | some q =>
      obtain ⟨o, s1⟩ := q
      rw [hxs] at h
      cases o with
      | ok a => exact I.trans _ _ _ (hx.ok _ _ _ hxs) ((hf a).ok _ _ _ h)
      | stop e => simp at h
  · cases hxs : x s with
    | none => simp [hxs] at h
    | some q =>
      obtain ⟨o, s1⟩ := q
      rw [hxs] at h
      cases o with
      | ok a => exact I.trans _ _ _ (hx.ok _ _ _ hxs) ((hf a).st _ _ _ h)
      | stop e => simp only [Option.some.injEq, Prod.mk.injEq] at h; obtain ⟨_, rfl⟩ := h; exact hx.st _ _ _ hxs

theorem simple_mod (I : SimpleRel σ) (f : St σ → St σ) (h : ∀ s, I.R s (f s)) : Pres I.R (fun s _ s' => I.R s s') (modSt f) :=
  ⟨by rintro s b s' ⟨⟩; exact h _, by rintro s b s' ⟨⟩⟩
theorem simple_pure (I : SimpleRel σ) (a : α) : Pres I.R (fun s _ s' => I.R s s') (pure a : EM σ α) :=
  ⟨by rintro s b s' ⟨⟩; exact I.refl _, by rintro s b s' ⟨⟩⟩
theorem simple_stop (I : SimpleRel σ) (e : Stop) : Pres I.R (fun s _ s' => I.R s s') (stop e : EM σ α) :=
  ⟨by rintro s b s' ⟨⟩, by rintro s b s' ⟨⟩; exact I.refl _⟩
theorem simple_getSt (I : SimpleRel σ) : Pres I.R (fun s _ s' => I.R s s') (getSt : EM σ (St σ)) :=
  ⟨by rintro s b s' ⟨⟩; exact I.refl _, by rintro s b s' ⟨⟩⟩
theorem simple_leave (I : SimpleRel σ) (i : Nat) : Pres I.R (fun s _ s' => I.R s s') (leave i : EM σ Unit) :=
  simple_mod I _ fun s => I.ctl s ..
theorem simple_cut (I : SimpleRel σ) (i : Nat) : Pres I.R (fun s _ s' => I.R s s') (cutTo i : EM σ Unit) :=
  simple_mod I _ fun s => I.ctl s ..
theorem simple_pop (I : SimpleRel σ) : Pres I.R (fun s _ s' => I.R s s') (popCatch : EM σ Unit) :=
  simple_mod I _ fun s => I.ctl s ..

/-- A simple relation is respected by the evaluator. -/
def SimpleRel.toStRel (I : SimpleRel σ) : StRel σ where
  Rok := I.R
  Rst := fun s _ s' => I.R s s'
  refl := I.refl
  halt := fun s _ _ => I.refl s
  thr := fun s _ _ => I.refl s
  esc := fun s _ _ _ => I.refl s
  trans := I.trans
  trans_st := fun a b _ c => I.trans a b c
  push := I.push
  upd := I.upd
  modsAt := fun s _ _ _ => I.mods s _ s.cur (modsKept_obSet _ _ _ _)
  modsUse := fun s _ _ => I.mods s _ s.cur (modsKept_use _ _ _)
  modsExport := fun s _ _ _ => I.mods s _ s.cur (modsKept_export _ _ _ _)
  modsNew := fun s _ => I.mods s _ _ (modsKept_append _ _)
  setCur := fun s m => I.mods s s.mods m (.refl _)
  delay := I.delay
  forced := I.forced
  setExt := I.setExt
  winds := fun s _ => I.ctl s ..
  windPush := fun s _ => I.ctl s ..
  runCatch := by
    intro rec _ hp hv tag tp tb te hp' hb he
    unfold Ev.runCatch
    refine simple_bind I (simple_getSt I) fun s => ?_
    split
    · exact ⟨by rintro s b s' ⟨⟩, by rintro s b s' ⟨⟩; exact I.refl _⟩
    · refine simple_bind I ⟨by rintro s b s' ⟨⟩; exact I.ctl s .., by rintro s b s' ⟨⟩⟩ fun id => ?_
      refine simple_handle I (hp ..) fun o => ?_
      split
      · exact simple_bind I (simple_pop I) fun _ => simple_bind I (simple_leave I _) fun _ => simple_pure I _
      · split
        · unfold Ev.runHandler
          refine simple_bind I (simple_cut I _) fun _ => simple_bind I (simple_pop I) fun _ => simple_handle I (hv ..) fun o => ?_
          split
          · exact simple_bind I (simple_leave I _) fun _ => simple_pure I _
          · split <;> exact simple_stop I _
          · exact simple_stop I _
        · exact simple_stop I _
      · exact simple_stop I _
  withCont := by
    intro k hk
    unfold Ev.withCont
    refine simple_bind I (simple_getSt I) fun s => ?_
    refine simple_bind I (simple_mod I _ fun s => I.ctl s ..) fun _ => ?_
    refine simple_handle I (hk _) fun o => ?_
    split
    · exact simple_bind I (simple_leave I _) fun _ => simple_pure I _
    · split
      · exact simple_bind I (simple_leave I _) fun _ => simple_bind I (simple_mod I _ fun s => I.ctl s ..) fun _ =>
          simple_pure I _
      · exact simple_stop I _
    · exact simple_stop I _

/-- A later state of the same interpreter: see the field comments. -/
structure Ext (s s' : St σ) : Prop where
  /-- frames survive, with their parent, their module and their variables -/
  frames : ∀ (i : Nat) (f : Frame), s.frames[i]? = some f → ∃ f' : Frame, s'.frames[i]? = some f' ∧ f'.parent = f.parent ∧ f'.modl = f.modl ∧
    ∀ x, hasEntry x f.entries = true → hasEntry x f'.entries = true
  /-- a new frame has an older parent -/
  parents : ∀ (i : Nat) (f' : Frame), s'.frames[i]? = some f' → s.frames[i]? = Option.none → ∃ p, f'.parent = some p ∧ p < i
  /-- promises survive, and the value of a forced promise does not change -/
  proms : ∀ (i : Nat) (p : Promise), s.proms[i]? = some p → ∃ p' : Promise, s'.proms[i]? = some p' ∧ p'.env = p.env ∧ p'.expr = p.expr ∧
    ∀ v, p.val = some v → p'.val = some v

theorem Ext.of_eq {s s' : St σ} (h : s'.frames = s.frames) (hp : s'.proms = s.proms) : Ext s s' := by
  refine ⟨?_, ?_, ?_⟩
  · intro i f hf; exact ⟨f, by rw [h]; exact hf, rfl, rfl, fun _ h => h⟩
  · intro i f' h1 h2; rw [h, h2] at h1; cases h1
  · intro i p hp'; exact ⟨p, by rw [hp]; exact hp', rfl, rfl, fun _ h => h⟩

theorem getElem?_updFrame (fr : List Frame) (e i : Nat) (g) :
    (updFrame fr e g)[i]? = (fr[i]?).map fun f => if i = e then { f with entries := g f.entries } else f := by
  unfold updFrame
  cases h : fr[e]? with
  | none =>
    cases hi : fr[i]? with
    | none => rfl
    | some f =>
      have : i ≠ e := by rintro rfl; rw [h] at hi; cases hi
      simp [this]
  | some f =>
    by_cases hie : i = e
    · subst hie
      have hlt : i < fr.length := by
        have := List.getElem?_eq_some_iff.1 h
        exact this.1
      rw [List.getElem?_set_self hlt]
      simp [h]
    · have hei : ¬ e = i := fun h => hie h.symm
      simp only [List.getElem?_set, hei, if_false, hie]
      cases fr[i]? <;> rfl

/-- The relation of `Ext` as an instance of the preservation theorem. -/
def extRel (σ : Type) : SimpleRel σ where
  R := Ext
  refl := fun s => Ext.of_eq rfl rfl
  trans := by
    intro a b c h k
    refine ⟨?_, ?_, ?_⟩
    · intro i f hf
      obtain ⟨f1, h1, h2, h3, h4⟩ := h.frames i f hf
      obtain ⟨f2, k1, k2, k3, k4⟩ := k.frames i f1 h1
      exact ⟨f2, k1, k2.trans h2, k3.trans h3, fun x hx => k4 x (h4 x hx)⟩
    · intro i f' hf' hn
      cases hb : b.frames[i]? with
      | none => exact k.parents i f' hf' hb
      | some f1 =>
        obtain ⟨p, hp, hlt⟩ := h.parents i f1 hb hn
        obtain ⟨f2, k1, k2, _, _⟩ := k.frames i f1 hb
        rw [hf'] at k1; cases k1
        exact ⟨p, k2.trans hp, hlt⟩
    · intro i p hp
      obtain ⟨p1, h1, h2, h3, h4⟩ := h.proms i p hp
      obtain ⟨p2, k1, k2, k3, k4⟩ := k.proms i p1 h1
      exact ⟨p2, k1, k2.trans h2, k3.trans h3, fun v hv => k4 v (h4 v hv)⟩
  push := by
    intro s p f m hp
    refine ⟨?_, ?_, ?_⟩
    · intro i g hg
      exact ⟨g, by
        have hlt : i < s.frames.length := (List.getElem?_eq_some_iff.1 hg).1
        show (s.frames ++ _)[i]? = _
        rw [List.getElem?_append_left hlt, hg], rfl, rfl, fun _ h => h⟩
    · intro i g hg hn
      have hle : s.frames.length ≤ i := List.getElem?_eq_none_iff.1 hn
      have hlt : p < s.frames.length := (List.getElem?_eq_some_iff.1 hp).1
      change (s.frames ++ [_])[i]? = _ at hg
      rw [List.getElem?_append_right hle] at hg
      have h0 : i - s.frames.length = 0 := by
        have := (List.getElem?_eq_some_iff.1 hg).1
        simp at this; omega
      rw [h0] at hg
      simp at hg
      subst hg
      exact ⟨p, rfl, Nat.lt_of_lt_of_le hlt hle⟩
    · intro i p hp; exact ⟨p, hp, rfl, rfl, fun _ h => h⟩
  upd := by
    intro s e g hg
    refine ⟨?_, ?_, ?_⟩
    · intro i f hf
      refine ⟨if i = e then { f with entries := g f.entries } else f, ?_, ?_, ?_, ?_⟩
      · show (updFrame s.frames e g)[i]? = _
        rw [getElem?_updFrame, hf]; rfl
      · split <;> rfl
      · split <;> rfl
      · intro x hx
        split
        · exact hg _ _ hx
        · exact hx
    · intro i f' h1 h2
      change (updFrame s.frames e g)[i]? = _ at h1
      rw [getElem?_updFrame, h2] at h1
      cases h1
    · intro i p hp; exact ⟨p, hp, rfl, rfl, fun _ h => h⟩
  mods := fun s ms c _ => Ext.of_eq rfl rfl
  delay := by
    intro s e x
    refine ⟨fun i f hf => ⟨f, hf, rfl, rfl, fun _ h => h⟩, ?_, ?_⟩
    · intro i f' h1 h2; change s.frames[i]? = _ at h1; rw [h2] at h1; cases h1
    · intro i p hp
      have hlt : i < s.proms.length := (List.getElem?_eq_some_iff.1 hp).1
      exact ⟨p, by
        show (s.proms ++ _)[i]? = _
        rw [List.getElem?_append_left hlt, hp], rfl, rfl, fun _ h => h⟩
  forced := by
    intro s i p v hp hv
    refine ⟨fun i f hf => ⟨f, hf, rfl, rfl, fun _ h => h⟩, ?_, ?_⟩
    · intro i f' h1 h2; change s.frames[i]? = _ at h1; rw [h2] at h1; cases h1
    · intro j q hq
      by_cases hij : i = j
      · subst hij
        rw [hp] at hq; cases hq
        have hlt : i < s.proms.length := (List.getElem?_eq_some_iff.1 hp).1
        refine ⟨{ p with val := some v }, ?_, rfl, rfl, ?_⟩
        · show (s.proms.set i _)[i]? = _
          rw [List.getElem?_set_self hlt]
        · intro w hw; rw [hv] at hw; cases hw
      · refine ⟨q, ?_, rfl, rfl, fun _ h => h⟩
        show (s.proms.set i _)[j]? = _
        rw [List.getElem?_set_ne hij, hq]
  setExt := fun s x => Ext.of_eq rfl rfl
  ctl := fun s cs l ws cts n c => Ext.of_eq rfl rfl

/-- Every evaluation, whatever its outcome, ends in a later state. -/
theorem run_ext {P : Prims σ} {t : Task} {s s' : St σ} {o : Out V} (h : run P t s = some (o, s')) : Ext s s' := by
  cases o with
  | ok a => exact ((extRel σ).toStRel.run_pres P t).ok _ _ _ h
  | stop e => exact ((extRel σ).toStRel.run_pres P t).st _ _ _ h

/-- Every frame has a parent that is older than itself, or none. -/
def FramesWF (fr : List Frame) : Prop := ∀ (i : Nat) (f : Frame) (p : Nat), fr[i]? = some f → f.parent = some p → p < i

/-- Well-formedness of frames is an invariant of every execution. -/
theorem Ext.wf {s s' : St σ} (h : Ext s s') (w : FramesWF s.frames) : FramesWF s'.frames := by
  intro i f' p hf' hp
  cases hs : s.frames[i]? with
  | none =>
    obtain ⟨q, hq, hlt⟩ := h.parents i f' hf' hs
    rw [hp] at hq; cases hq; exact hlt
  | some f =>
    obtain ⟨g, h1, h2, _, _⟩ := h.frames i f hs
    rw [hf'] at h1; cases h1
    exact w i f p hs (h2.symm.trans hp)

/-- Modules are never removed, keep their names and gain but never lose bindings, imports and exports; the root module stays. -/
def modRel (σ : Type) : SimpleRel σ where
  R := fun s s' => ModsKept s.mods s'.mods ∧ s'.root = s.root
  refl := fun _ => ⟨.refl _, rfl⟩
  trans := fun _ _ _ h k => ⟨h.1.trans k.1, k.2.trans h.2⟩
  push := fun _ _ _ _ _ => ⟨.refl _, rfl⟩
  upd := fun _ _ _ _ => ⟨.refl _, rfl⟩
  mods := fun _ _ _ h => ⟨h, rfl⟩
  delay := fun _ _ _ => ⟨.refl _, rfl⟩
  forced := fun _ _ _ _ _ _ => ⟨.refl _, rfl⟩
  setExt := fun _ _ => ⟨.refl _, rfl⟩
  ctl := fun _ _ _ _ _ _ _ => ⟨.refl _, rfl⟩

theorem run_mods {P : Prims σ} {t : Task} {s s' : St σ} {o : Out V} (h : run P t s = some (o, s')) :
    ModsKept s.mods s'.mods ∧ s'.root = s.root := by
  have := (modRel σ).toStRel.run_pres P t
  cases o with
  | ok v => exact this.ok _ _ _ h
  | stop e => exact this.st _ _ _ h

end Pscm.Ev
