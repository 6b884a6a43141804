import Verif.EvCall
/-!
# Every environment that is mentioned exists

Vocabulary for C89 and the proof that evaluation never produces a reference to an environment that has not been created
(`scope_run`); with it the hypothesis "nothing refers to the frame about to be created" of C45, C48, C49 and C52 holds in every
state that an execution can reach.
-/
namespace Pscm.Ev
variable {σ α : Type}
open EM (stop getSt modSt)

/-- The environments that occur in a value: those captured by the procedures and macros in it. -/
def envsOf : V → List Nat
  | .pair a d => envsOf a ++ envsOf d
  | .vec e => envsOf e
  | .proc p b e => e :: (envsOf p ++ envsOf b)
  | .macro p b e => e :: (envsOf p ++ envsOf b)
  | _ => []

/-- All environments that occur in `v` satisfy `D`. -/
def MentionsOnly (D : Nat → Prop) (v : V) : Prop := ∀ e ∈ envsOf v, D e

/-- All that a builtin returns, raises, stores or asks to be evaluated mentions only environments that satisfy `D`, as long as the values that
it is given back do. -/
def ResMentionsOnly (W : (Nat → Prop) → σ → Prop) (D : Nat → Prop) : PrimRes σ → Prop
  | .done (.ok v) x => W D x ∧ MentionsOnly D v
  | .done (.raise _ a) x => W D x ∧ MentionsOnly D a
  | .done _ x => W D x
  | .eval e x k => W D x ∧ MentionsOnly D e ∧ ∀ v y, MentionsOnly D v → W D y → ResMentionsOnly W D (k v y)

/-- `W D x`: the part `x` of the world that belongs to the builtins holds only references to environments that satisfy `D`.
`HonestWorld W P`: a builtin does not invent references: what it returns, raises, stores or evaluates mentions only environments that its
arguments or its part of the world mention; the expressions read from a file are plain data. -/
structure HonestWorld (W : (Nat → Prop) → σ → Prop) (P : Prims σ) : Prop where
  mono : ∀ D D' x, (∀ i, D i → D' i) → W D x → W D' x
  call : ∀ D n args x, (∀ a ∈ args, MentionsOnly D a) → W D x → ResMentionsOnly W D (P.call n args x)
  init : ∀ D n, MentionsOnly D (P.init n)
  file : ∀ f x xs, P.file f x = .exprs xs → ∀ e ∈ xs, envsOf e = []

/-- Every environment mentioned anywhere in the state exists. -/
structure Scoped (W : (Nat → Prop) → σ → Prop) (s : St σ) : Prop where
  global : 0 < s.frames.length
  vars : ∀ f ∈ s.frames, ∀ b ∈ f.entries, MentionsOnly (· < s.frames.length) b.2
  parents : ∀ f ∈ s.frames, ∀ p, f.parent = some p → p < s.frames.length
  mods : ∀ m ∈ s.mods, ∀ b ∈ m.obarray, MentionsOnly (· < s.frames.length) b.2
  proms : ∀ p ∈ s.proms, p.env < s.frames.length ∧ MentionsOnly (· < s.frames.length) p.expr ∧
    ∀ v, p.val = some v → MentionsOnly (· < s.frames.length) v
  winds : ∀ w ∈ s.winds, MentionsOnly (· < s.frames.length) w.inG ∧ MentionsOnly (· < s.frames.length) w.outG
  conts : ∀ c ∈ s.conts, ∀ w ∈ c.winds, MentionsOnly (· < s.frames.length) w.inG ∧ MentionsOnly (· < s.frames.length) w.outG
  ext : W (· < s.frames.length) s.ext

/-- The values that an outcome carries. -/
def outValues : Out V → List V
  | .ok v => [v]
  | .stop (.err _ _ a) => [a]
  | .stop (.esc _ v) => [v]
  | .stop _ => []

/-! ## Proof -/

theorem clean_iff {pe : Dom} {v : V} : Clean pe v ↔ MentionsOnly pe.D v := by
  unfold MentionsOnly
  induction v with
  | pair a d iha ihd =>
    simp only [Clean, envsOf, List.mem_append, iha, ihd]
    exact ⟨fun h e he => he.elim (h.1 e) (h.2 e), fun h => ⟨fun e he => h e (.inl he), fun e he => h e (.inr he)⟩⟩
  | vec e ih => simpa only [Clean, envsOf] using ih
  | proc p b e ihp ihb =>
    simp only [Clean, envsOf, List.mem_cons, List.mem_append, ihp, ihb]
    constructor
    · rintro ⟨h1, h2, h3⟩ x (rfl | hx | hx)
      · exact h3
      · exact h1 x hx
      · exact h2 x hx
    · exact fun h => ⟨fun x hx => h x (.inr (.inl hx)), fun x hx => h x (.inr (.inr hx)), h e (.inl rfl)⟩
  | «macro» p b e ihp ihb =>
    simp only [Clean, envsOf, List.mem_cons, List.mem_append, ihp, ihb]
    constructor
    · rintro ⟨h1, h2, h3⟩ x (rfl | hx | hx)
      · exact h3
      · exact h1 x hx
      · exact h2 x hx
    · exact fun h => ⟨fun x hx => h x (.inr (.inl hx)), fun x hx => h x (.inr (.inr hx)), h e (.inl rfl)⟩
  | _ => simp [Clean, envsOf]

theorem MentionsOnly.weaken {D D' : Nat → Prop} {v : V} (hD : ∀ i, D i → D' i) (h : MentionsOnly D v) : MentionsOnly D' v :=
  fun e he => hD e (h e he)

theorem honestRes_of {W : (Nat → Prop) → σ → Prop} {pe : Dom} {t : PrimRes σ} (h : ResMentionsOnly W pe.D t) : HonestRes (W pe.D) pe t := by
  induction t with
  | done o x =>
    cases o with
    | ok v => exact ⟨h.1, clean_iff.2 h.2⟩
    | raise k a => exact ⟨h.1, clean_iff.2 h.2⟩
    | abort => exact h
    | ub => exact h
  | eval e x k ih => exact ⟨h.1, clean_iff.2 h.2.1, fun v y hv hy => ih v y (h.2.2 v y (clean_iff.1 hv) hy)⟩

theorem HonestWorld.honest {W : (Nat → Prop) → σ → Prop} {P : Prims σ} (h : HonestWorld W P) (pe : Dom) : Honest (W pe.D) pe P where
  call := fun n args x ha hx => honestRes_of (h.call _ n args x (fun a hm => clean_iff.1 (ha a hm)) hx)
  init := fun n => clean_iff.2 (h.init _ n)
  file := fun f x xs _ hf e he => clean_iff.2 fun i hi => by rw [h.file f x xs hf e he] at hi; cases hi

/-- The environments below `N`, and executions that end with at most `N` frames. -/
def below (N : Nat) : Dom := ⟨(· < N), 0, (· ≤ N), fun _ _ h => h, fun _ _ h k => Nat.le_trans h k⟩

theorem Scoped.clean {W : (Nat → Prop) → σ → Prop} {P : Prims σ} (hP : HonestWorld W P) {s : St σ} (h : Scoped W s) {N : Nat}
    (hN : s.frames.length ≤ N) : CleanSt (W (below N).D) (below N) s := by
  have lift : ∀ {v}, MentionsOnly (· < s.frames.length) v → Clean (below N) v := fun hv =>
    clean_iff.2 (hv.weaken fun i hi => Nat.lt_of_lt_of_le hi hN)
  refine ⟨Nat.lt_of_lt_of_le h.global hN, Nat.zero_le _, ?_, ?_, ?_, ?_, ?_, ?_⟩
  · intro i f hf _
    have := List.mem_of_getElem? hf
    exact ⟨fun p hp => lift (h.vars f this p hp), fun p hp => Nat.lt_of_lt_of_le (h.parents f this p hp) hN⟩
  · exact fun m hm p hp => lift (h.mods m hm p hp)
  · exact fun p hp => ⟨Nat.lt_of_lt_of_le (h.proms p hp).1 hN, lift (h.proms p hp).2.1, fun v hv => lift ((h.proms p hp).2.2 v hv)⟩
  · exact fun w hw => ⟨lift (h.winds w hw).1, lift (h.winds w hw).2⟩
  · exact fun c hc w hw => ⟨lift (h.conts c hc w hw).1, lift (h.conts c hc w hw).2⟩
  · exact hP.mono _ _ _ (fun i hi => Nat.lt_of_lt_of_le hi hN) h.ext

theorem scoped_of_clean {W : (Nat → Prop) → σ → Prop} {s : St σ} (c : CleanSt (W (below s.frames.length).D) (below s.frames.length) s) :
    Scoped W s := by
  have low : ∀ {v}, Clean (below s.frames.length) v → MentionsOnly (· < s.frames.length) v := fun hv => clean_iff.1 hv
  have fr : ∀ f ∈ s.frames, CleanEs (below s.frames.length) f.entries ∧ ∀ p, f.parent = some p → p < s.frames.length := by
    intro f hf
    obtain ⟨i, hi⟩ := List.mem_iff_getElem?.1 hf
    exact c.frames i f hi (List.getElem?_eq_some_iff.1 hi).1
  exact ⟨c.pos, fun f hf b hb => low ((fr f hf).1 b hb), fun f hf => (fr f hf).2, fun m hm b hb => low (c.mods m hm b hb),
    fun p hp => ⟨(c.proms p hp).1, low (c.proms p hp).2.1, fun v hv => low ((c.proms p hp).2.2 v hv)⟩,
    fun w hw => ⟨low (c.winds w hw).1, low (c.winds w hw).2⟩, fun k hk w hw => ⟨low (c.conts k hk w hw).1, low (c.conts k hk w hw).2⟩, c.ext⟩

theorem scope_run {W : (Nat → Prop) → σ → Prop} {P : Prims σ} (hP : HonestWorld W P) {t : Task} {s s' : St σ} {o : Out V}
    (hs : Scoped W s) (ht : CleanT (below s'.frames.length) t) (hr : run P t s = some (o, s')) :
    Scoped W s' ∧ ∀ v ∈ outValues o, MentionsOnly (· < s'.frames.length) v := by
  have hle := (mono_run (P := P) t).le hr
  have c := hs.clean hP hle
  obtain ⟨c', g⟩ := (hide_run (hP.honest (below s'.frames.length)) c.pos t ht).good s o s' (Nat.le_refl _) c hr
  refine ⟨scoped_of_clean c', ?_⟩
  intro v hv
  cases o with
  | ok a => simp only [outValues, List.mem_singleton] at hv; subst hv; exact clean_iff.1 g
  | stop e =>
    cases e <;> simp only [outValues, List.mem_singleton, List.not_mem_nil] at hv
    · subst hv; exact clean_iff.1 g
    · subst hv; exact clean_iff.1 g

/-- In a scoped state nothing refers to the environment that will be created next. -/
theorem Scoped.unreferenced {W : (Nat → Prop) → σ → Prop} {P : Prims σ} (hP : HonestWorld W P) {s : St σ} (h : Scoped W s) :
    Unreferenced (W (others s.frames.length).D) s.frames.length s := by
  have lift : ∀ {v}, MentionsOnly (· < s.frames.length) v → Clean (others s.frames.length) v := fun hv =>
    clean_iff.2 (hv.weaken fun i hi => Nat.ne_of_lt hi)
  refine ⟨Nat.ne_of_lt h.global, ?_, ?_, ?_, ?_, ?_, ?_⟩
  · intro i f hf _
    have := List.mem_of_getElem? hf
    exact ⟨fun p hp => lift (h.vars f this p hp), fun p hp => Nat.ne_of_lt (h.parents f this p hp)⟩
  · exact fun m hm p hp => lift (h.mods m hm p hp)
  · exact fun p hp => ⟨Nat.ne_of_lt (h.proms p hp).1, lift (h.proms p hp).2.1, fun v hv => lift ((h.proms p hp).2.2 v hv)⟩
  · exact fun w hw => ⟨lift (h.winds w hw).1, lift (h.winds w hw).2⟩
  · exact fun c hc w hw => ⟨lift (h.conts c hc w hw).1, lift (h.conts c hc w hw).2⟩
  · exact hP.mono _ _ _ (fun i hi => Nat.ne_of_lt hi) h.ext

end Pscm.Ev
