import Verif.RefRel
/-! # The interpreter simulates the reference semantics: lemmas -/
namespace Pscm.Ref
open Pscm.Ev hiding Name Form evalForm
variable {σ : Type} {P : Prims σ} {A : Name → Int → Prop} {W W' : World} {st : Store} {s s' : St σ} {X0 : Fixed σ}

/-! ## Lists -/

theorem lookup_append {β : Type} (as bs : List (Name × β)) (x : Name) : (as ++ bs).lookup x = (as.lookup x).or (bs.lookup x) := by
  induction as with
  | nil => rfl
  | cons a as ih =>
    obtain ⟨k, v⟩ := a
    by_cases h : x = k
    · subst h; simp [List.lookup]
    · have : (x == k) = false := by simp [h]
      simp only [List.cons_append, List.lookup, this, ih]

theorem lookup_none_iff {β : Type} {as : List (Name × β)} {x : Name} : as.lookup x = none ↔ x ∉ as.map Prod.fst := by
  induction as with
  | nil => simp
  | cons a as ih =>
    obtain ⟨k, v⟩ := a
    by_cases h : x = k
    · subst h; simp [List.lookup]
    · have : (x == k) = false := by simp [h]
      simp only [List.lookup, this, ih, List.map_cons, List.mem_cons, not_or]
      exact ⟨fun h' => ⟨h, h'⟩, fun h' => h'.2⟩

theorem lookup_mem {β : Type} {as : List (Name × β)} {x : Name} {v : β} (h : as.lookup x = some v) : (x, v) ∈ as := by
  induction as with
  | nil => cases h
  | cons a as ih =>
    obtain ⟨k, w⟩ := a
    by_cases hk : x = k
    · subst hk; simp [List.lookup] at h; simp [h]
    · have : (x == k) = false := by simp [hk]
      simp only [List.lookup, this] at h
      exact .tail _ (ih h)

theorem lookup_setGlobal (x : Name) (v : Val) (gs : List (Name × Val)) (y : Name) :
    (setGlobal x v gs).lookup y = if y = x then some v else gs.lookup y := by
  induction gs with
  | nil => by_cases h : y = x <;> simp [setGlobal, List.lookup, h]; simp [beq_eq_false_iff_ne.2 h]
  | cons g gs ih =>
    obtain ⟨k, w⟩ := g
    simp only [setGlobal]
    by_cases hk : k = x
    · subst hk
      by_cases hy : y = k
      · subst hy; simp [List.lookup]
      · simp [List.lookup, hy, beq_eq_false_iff_ne.2 hy]
    · rw [if_neg hk]
      by_cases hy : y = k
      · subst hy; simp [List.lookup, hk]
      · simp only [List.lookup, beq_eq_false_iff_ne.2 hy, ih]

/-! ## Worlds -/

/-- More frames are known. -/
def World.le (W W' : World) : Prop := ∀ e q, W e = some q → W' e = some q

theorem World.le_refl (W : World) : W.le W := fun _ _ h => h
theorem World.le.trans {W1 W2 W3 : World} (h : W1.le W2) (k : W2.le W3) : W1.le W3 := fun e q hq => k e q (h e q hq)

theorem EnvAt.mono (h : W.le W') {e ρ} (k : EnvAt W e ρ) : EnvAt W' e ρ := by
  induction k with
  | top => exact .top
  | rib hw _ ih => exact .rib (h _ _ hw) ih

theorem VRel.mono (h : W.le W') : ∀ {v w}, VRel A W v w → VRel A W' v w
  | .nil, _, k => k
  | .bool _, _, k => k
  | .num _, _, k => k
  | .chr _, _, k => k
  | .str _, _, k => k
  | .sym _, _, k => k
  | .pair _ _, _, ⟨a, d, e, k1, k2⟩ => ⟨a, d, e, VRel.mono h k1, VRel.mono h k2⟩
  | .unspecified, _, k => k
  | .undefined, _, k => k.elim
  | .unassigned, _, k => k.elim
  | .prim _, _, k => k
  | .clo _ _ _ _, _, ⟨e, k1, k2, k3⟩ => ⟨e, k1, k2.mono h, k3⟩

theorem VRels.mono (h : W.le W') {vs ws} (k : VRels A W vs ws) : VRels A W' vs ws := by
  induction k with
  | nil => exact .nil
  | cons a _ ih => exact .cons (a.mono h) ih

theorem VRels.length {vs ws} (k : VRels A W vs ws) : vs.length = ws.length := by
  induction k with
  | nil => rfl
  | cons _ _ ih => simp [ih]

theorem VRel.noMacro {v w} (h : VRel A W v w) : isMacro w = false := by
  cases v with
  | pair a d => obtain ⟨_, _, rfl, _⟩ := h; rfl
  | prim x => obtain ⟨_, _, rfl⟩ := h; rfl
  | clo ps r b ρ => obtain ⟨_, rfl, _⟩ := h; rfl
  | undefined => exact h.elim
  | unassigned => exact h.elim
  | _ => cases h; rfl

theorem VRel.truthy {v w} (h : VRel A W v w) : Pscm.Ev.truthy w = v.isTrue := by
  cases v with
  | pair a d => obtain ⟨_, _, rfl, _⟩ := h; rfl
  | prim x => obtain ⟨_, _, rfl⟩ := h; rfl
  | clo ps r b ρ => obtain ⟨_, rfl, _⟩ := h; rfl
  | undefined => exact h.elim
  | unassigned => exact h.elim
  | bool b => cases h; cases b <;> rfl
  | _ => cases h; rfl

theorem datum_rel (d : Datum) : VRel A W d.toVal d.toV := by
  induction d with
  | pair a d iha ihd => exact ⟨_, _, rfl, iha, ihd⟩
  | _ => rfl

theorem const_rel (c : Const) : VRel A W c.toVal c.toV := by cases c <;> rfl

/-! ## Variables -/

theorem StRel.noMacro (h : StRel X0 A W st s) {x : Name} (hx : x ∉ macroNames) : NoMacro s x :=
  ⟨fun f hf v hv => (h.macros f hf (x, v) hv).resolve_left hx, fun m hm v hv => h.modMacros m hm (x, v) hv⟩

/-- A local variable. -/
theorem StRel.local (h : StRel X0 A W st s) {e ρ x l} (hvar : IsVar x) (he : EnvAt W e ρ) (hx : ρ.lookup x = some l) :
    st.cells[l]? = some .unassigned ∨ ∃ i bs p w, W i = some (bs, p) ∧ bs.lookup x = some l ∧ Binds s.frames x e i w := by
  induction he with
  | top => cases hx
  | @rib e bs p ρ hw _ ih =>
    obtain ⟨h0, es, hes, hn, hs⟩ := h.rib _ _ _ hw
    rw [lookup_append] at hx
    cases hb : bs.lookup x with
    | some l' =>
      rw [hb] at hx
      cases hx
      obtain ⟨v, hc, rfl | ⟨w, hw', _⟩⟩ := hs x _ hb
      · exact .inl hc
      · exact .inr ⟨e, bs, p, w, hw, hb, .here hes hw'⟩
    | none =>
      rw [hb] at hx
      rcases ih hx with hu | ⟨i, bs', p', w, h1, h2, h3⟩
      · exact .inl hu
      · exact .inr ⟨i, bs', p', w, h1, h2, .up hes (hn x hvar hb) rfl h3⟩

/-- A variable that is not local is searched in the global environment. -/
theorem StRel.outer (h : StRel X0 A W st s) {e ρ x} (hvar : IsVar x) (he : EnvAt W e ρ) (hx : ρ.lookup x = none) {es}
    (h0 : s.frames[0]? = some ⟨es, none, none⟩) {i w} : Binds s.frames x e i w ↔ i = 0 ∧ es.lookup x = some w := by
  induction he with
  | top =>
    constructor
    · intro hb
      cases hb with
      | here hf hv => rw [h0] at hf; cases hf; exact ⟨rfl, hv⟩
      | up hf _ hp _ => rw [h0] at hf; cases hf; cases hp
    · rintro ⟨rfl, hv⟩
      exact .here h0 hv
  | @rib e bs p ρ hw _ ih =>
    obtain ⟨_, es', hes, hn, _⟩ := h.rib _ _ _ hw
    rw [lookup_append, Option.or_eq_none_iff] at hx
    have hno := hn x hvar hx.1
    rw [← ih hx.2]
    constructor
    · intro hb
      cases hb with
      | here hf hv => rw [hes] at hf; cases hf; rw [hno] at hv; cases hv
      | up hf _ hp hb => rw [hes] at hf; cases hf; cases hp; exact hb
    · exact .up hes hno rfl

theorem StRel.noModule (h : StRel X0 A W st s) {e ρ} (he : EnvAt W e ρ) {m} : ¬ ModuleOf s.frames e m := by
  obtain ⟨es, md, h0, _⟩ := h.top
  induction he with
  | top =>
    intro hm
    cases hm with
    | here hf hm => rw [h0] at hf; cases hf; cases hm
    | up hf _ hp _ => rw [h0] at hf; cases hf; cases hp
  | @rib e bs p ρ hw _ ih =>
    obtain ⟨_, es', hes, _⟩ := h.rib _ _ _ hw
    intro hm
    cases hm with
    | here hf hm => rw [hes] at hf; cases hf; cases hm
    | up hf _ hp hm => rw [hes] at hf; cases hf; cases hp; exact ih hm

theorem root_search {s : St σ} {md : Modl} (hm : s.mods[s.root]? = some md) (hu : md.uses = []) (x : Name) :
    searchModule s.mods s.root s.root x = md.obarray.lookup x := by
  unfold searchModule findModule obLookup
  simp only [hm, hu, firstWith]
  cases hx : findEntry x md.obarray <;> simp [lookup_eq_findEntry, hx, hm]

/-- The interpreter finds a non-local variable in the global environment or in the root module. -/
theorem StRel.global (h : StRel X0 A W st s) {e ρ x es md} (hvar : IsVar x) (he : EnvAt W e ρ) (hx : ρ.lookup x = none)
    (h0 : s.frames[0]? = some ⟨es, none, none⟩) (hm : s.mods[s.root]? = some md) (hu : md.uses = []) :
    envSearch s e x = topVal es md.obarray x := by
  unfold envSearch topVal
  have hchain : chainValue s e x = none := by
    unfold chainValue
    cases hc : chainModule s.frames (e + 1) e with
    | none => rfl
    | some m => exact absurd ((chainModule_iff h.wf (e + 1) (by omega)).1 hc) (h.noModule he)
  rw [hchain, h.curRoot, root_search hm hu]
  cases hes : es.lookup x with
  | some w =>
    have : lookChain s.frames e x = some w := (lookChain_iff h.wf).2 ⟨0, (h.outer hvar he hx h0).2 ⟨rfl, hes⟩⟩
    rw [this]
  | none =>
    have : lookChain s.frames e x = none := by
      rw [lookChain_none h.wf]
      intro i w hb
      have := ((h.outer hvar he hx h0).1 hb).2
      rw [hes] at this
      cases this
    rw [this]
    cases md.obarray.lookup x with
    | some w => rfl
    | none => simp only [lookOwn, h0, ← lookup_eq_findEntry, hes, ite_self]

/-- Variable reference. -/
theorem StRel.look_some (h : StRel X0 A W st s) {e ρ x v} (hvar : IsVar x) (he : EnvAt W e ρ) (hx : look ρ st x = some v) :
    (v = .undefined ∨ v = .unassigned) ∨ ∃ w, envSearch s e x = some w ∧ VRel A W v w := by
  unfold look at hx
  cases hl : ρ.lookup x with
  | some l =>
    rw [hl] at hx
    have hx : st.cells[l]? = some v := hx
    rcases h.local hvar he hl with hu | ⟨i, bs, p, w, h1, h2, h3⟩
    · rw [hu] at hx
      cases hx
      exact .inl (.inr rfl)
    obtain ⟨_, es, hes, _, hs⟩ := h.rib _ _ _ h1
    obtain ⟨v', hc, hr⟩ := hs x l h2
    rw [hx] at hc
    cases hc
    rcases hr with rfl | ⟨w', hw', rfl | hr⟩
    · exact .inl (.inr rfl)
    · exact .inl (.inl rfl)
    · refine .inr ⟨w', ?_, hr⟩
      obtain ⟨f, hf, hv⟩ := h3.at
      rw [hes] at hf
      cases hf
      rw [hw'] at hv
      cases hv
      unfold envSearch
      rw [(lookChain_iff h.wf).2 ⟨i, h3⟩]
  | none =>
    rw [hl] at hx
    obtain ⟨es, md, h0, hm, hu, _, hs, _⟩ := h.top
    obtain ⟨w, hw, hr⟩ := hs x v hx
    exact .inr ⟨w, by rw [h.global hvar he hl h0 hm hu, hw], hr⟩

theorem StRel.look_none (h : StRel X0 A W st s) {e ρ x} (hvar : IsVar x) (hm : x ∉ macroNames) (he : EnvAt W e ρ) (hx : look ρ st x = none) : envSearch s e x = none := by
  unfold look at hx
  cases hl : ρ.lookup x with
  | some l =>
    rw [hl] at hx
    have hx : st.cells[l]? = none := hx
    rcases h.local hvar he hl with hu | ⟨i, bs, p, w, h1, h2, h3⟩
    · rw [hu] at hx
      cases hx
    obtain ⟨_, es, hes, _, hs⟩ := h.rib _ _ _ h1
    obtain ⟨v', hc, _⟩ := hs x l h2
    rw [hx] at hc
    cases hc
  | none =>
    rw [hl] at hx
    obtain ⟨es, md, h0, hm, hu, hn, _⟩ := h.top
    rw [h.global hvar he hl h0 ‹_› hu, hn x ‹_› hx]

theorem IsVar.form {x : Name} (h : IsVar x) : formOf x = none := by
  have h := h.1
  simp only [reserved, List.mem_append, List.mem_cons, List.not_mem_nil, or_false, not_or] at h
  simp only [formOf, h, if_false]

theorem IsVar.macros {x : Name} (h : IsVar x) : x ∉ macroNames := fun hm => h.1 (List.mem_append.2 (.inl hm))

theorem IsVar.keyword {x : Name} (h : IsVar x) : isKeyword x = false := by
  simpa [isKeyword] using h.2.1

theorem StRel.frame (h : StRel X0 A W st s) {e ρ} (he : EnvAt W e ρ) : ∃ es p, s.frames[e]? = some ⟨es, p, none⟩ := by
  cases he with
  | top => obtain ⟨es, md, h0, _⟩ := h.top; exact ⟨es, _, h0⟩
  | rib hw _ => obtain ⟨_, es, hes, _⟩ := h.rib _ _ _ hw; exact ⟨es, _, hes⟩

/-- An error. -/
theorem evalError_apply {α : Type} {m : String} {t : Option Nat} (h : Throws t s) :
    (evalError m : EM σ α) s = some (.stop (.err t "error" (.pair (.str m) .nil)), s) := by
  show some (Out.stop (throwStop s "error" _), s) = _
  rw [h]

/-- The value of a variable. -/
theorem run_var (hx : IsVar x) {e : Nat} : run P (.eval e (.sym x)) s = lookupSymbol e x s := by
  rw [run_eq]
  show (if isKeyword x = true then _ else lookupSymbol e x) s = _
  rw [if_neg (by simp [hx.keyword])]

/-- A call of a variable. -/
theorem StRel.run_call (h : StRel X0 A W st s) {e ρ x rest} (he : EnvAt W e ρ) (hx : IsVar x) :
    run P (.eval e (.pair (.sym x) rest)) s = (lookupSymbol e x >>= fun v => run P (.eval e (.pair v rest))) s := by
  rw [run_eq]
  show evalPair P (run P) e (.sym x) rest s = _
  unfold evalPair
  simp only [getSt_bind, hx.form]
  cases hop : opValue s e x with
  | none => rfl
  | some v =>
    have hnm := (h.noMacro hx.macros).op hop
    have hown : lookOwn s.frames e x = some v := by
      unfold opValue at hop
      cases ho : lookOwn s.frames e x with
      | some w => rw [ho] at hop; exact hop
      | none =>
        rw [ho] at hop
        simp only [h.curRoot, ne_eq, not_true_eq_false, if_false] at hop
        cases h0 : lookOwn s.frames 0 x with
        | none => rw [h0] at hop; cases hop
        | some w =>
          rw [h0] at hop
          simp only [(h.noMacro hx.macros).own h0] at hop
          cases hop
    have hs : envSearch s e x = some v := by
      have : lookChain s.frames e x = some v := by
        rw [lookChain_iff h.wf]
        refine ⟨e, ?_⟩
        unfold lookOwn at hown
        cases hf : s.frames[e]? with
        | none => rw [hf] at hown; cases hown
        | some f => rw [hf] at hown; exact .here hf (by rw [lookup_eq_findEntry]; exact hown)
      unfold envSearch
      rw [this]
    have hl : lookupSymbol e x s = some (.ok v, s) := by
      unfold lookupSymbol
      simp only [getSt_bind, hs]
      rfl
    rw [bind_apply, hl]
    cases v <;> first | rfl | cases hnm

end Pscm.Ref
